import Verif.Shv
import Verif.Props.Commands
import Verif.Props.NamesProps
import Mathlib.Tactic.Linarith

/-!
# C87: SHV files
-/

namespace Emb
namespace Shv

/-! ## Specification -/

/-- What the stitch part of an SHV file consists of. -/
inductive Item where
  /-- a displacement of up to 12.8 mm -/
  | point (dx dy : Int)
  /-- a long move; from here on points are jumps -/
  | far (dx dy : Int)
  /-- points are stitches again -/
  | back
  /-- nothing -/
  | pause

/-- A signed number as one byte and as two, the higher first. -/
def twos8 (v : Int) : Int := if v < 0 then v + 256 else v
def twos16 (v : Int) : Bytes := [(if v < 0 then v + 65536 else v) / 256, (if v < 0 then v + 65536 else v) % 256]

def Item.bytes : Item → Bytes
  | .point dx dy => [twos8 dx, twos8 dy]
  | .far dx dy => [0x80, 1] ++ twos16 dx ++ twos16 dy
  | .back => [0x80, 2]
  | .pause => [0x80, 3]

/-- As how many stitches an item counts: one for two bytes; a point 12.8 mm to the left counts twice, since it begins like a mark. -/
def Item.units : Item → Nat
  | .point dx _ => if dx = -128 then 2 else 1
  | .far .. => 3
  | _ => 1

def Item.Fits : Item → Prop
  | .point dx dy => -128 ≤ dx ∧ dx ≤ 127 ∧ -128 ≤ dy ∧ dy ≤ 127 ∧ (dx = -128 → dy ∉ [1, 2, 3])
  | .far dx dy => -32768 ≤ dx ∧ dx ≤ 32767 ∧ -32768 ≤ dy ∧ dy ≤ 32767
  | _ => True

def units (l : List Item) : Nat := (l.map Item.units).sum

/-- The items of all colours, with `none` where the colour changes. -/
def joined (segs : List (List Item)) : List (Option Item) := List.intercalate [none] (segs.map (fun s => s.map some))

/-- The commands for such a list, from a position, and END. -/
def drawn (x y : ℚ) (jumping : Bool) : List (Option Item) → List Stitch
  | [] => [⟨x, y, 4⟩]
  | none :: l => ⟨x, y, 5⟩ :: drawn x y jumping l
  | some (.point dx dy) :: l => ⟨x + dx, y + dy, if jumping then 1 else 0⟩ :: drawn (x + dx) (y + dy) jumping l
  | some (.far dx dy) :: l => ⟨x + dx, y + dy, 1⟩ :: drawn (x + dx) (y + dy) true l
  | some .back :: l => drawn x y false l
  | some .pause :: l => drawn x y jumping l

/-- A colour in the header: number of stitches, index of the thread, and nine bytes (seven for the last). -/
structure Colour where
  count : Nat
  code : Nat
  fill : Bytes

def Colour.bytes (c : Colour) : Bytes := writeInt32be c.count ++ [(c.code : Int)] ++ c.fill

/-! ## Proofs -/

/-- The records for such a list. -/
def relative (jumping : Bool) : List (Option Item) → List Rec
  | [] => []
  | none :: l => ⟨0, 0, 5⟩ :: relative jumping l
  | some (.point dx dy) :: l => ⟨dx, dy, if jumping then 1 else 0⟩ :: relative jumping l
  | some (.far dx dy) :: l => ⟨dx, dy, 1⟩ :: relative true l
  | some .back :: l => relative false l
  | some .pause :: l => relative jumping l

theorem place_relative (l : List (Option Item)) (x y : ℚ) (j : Bool) : place x y (relative j l ++ [⟨0, 0, END⟩]) = drawn x y j l := by
  induction l generalizing x y j with
  | nil => simp [relative, place, drawn, END]
  | cons i l ih =>
    cases i with
    | none => simp [relative, place, drawn, ih]
    | some i => cases i <;> simp [relative, place, drawn, ih]

/-- Whether points are jumps after some items. -/
def after (jumping : Bool) : List Item → Bool
  | [] => jumping
  | .far .. :: l => after true l
  | .back :: l => after false l
  | _ :: l => after jumping l

theorem relative_append (a : List Item) (b : List (Option Item)) (j : Bool) :
    relative j (a.map some ++ b) = relative j (a.map some) ++ relative (after j a) b := by
  induction a generalizing j with
  | nil => rfl
  | cons i a ih => cases i <;> simp [relative, after, ih]

theorem change_none (s : State) (h : s.since < s.max) : change s = ([], s) := by
  unfold change
  rw [if_neg (by omega)]

theorem s16 (v : Int) (h1 : -32768 ≤ v) (h2 : v ≤ 32767) :
    signed16 (lo8 ((if v < 0 then v + 65536 else v) % 256) + lo8 ((if v < 0 then v + 65536 else v) / 256) * 2 ^ 8) = v := by
  unfold signed16 lo8
  simp only
  split_ifs <;> omega

theorem s8 (v : Int) (h1 : -128 ≤ v) (h2 : v ≤ 127) : signed8 (twos8 v) = v := by
  unfold signed8 twos8
  split_ifs <;> omega

theorem recs_items (its : List Item) (hf : ∀ i ∈ its, i.Fits) (j : Bool) (since mx : Int) (counts : List Int)
    (h : since + units its ≤ mx) (tail : Bytes) :
    recs ⟨j, since, mx, counts⟩ (its.flatMap Item.bytes ++ tail) =
      (recs ⟨after j its, since + units its, mx, counts⟩ tail).map (relative j (its.map some) ++ ·) := by
  have mm : ∀ (e : Except PyErr (List Rec)) (a b : List Rec), (e.map (a ++ ·)).map (b ++ ·) = e.map ((b ++ a) ++ ·) := by
    intro e a b
    cases e with
    | error e => rfl
    | ok l => simp [Except.map, List.append_assoc]
  induction its generalizing j since with
  | nil =>
    simp only [List.flatMap_nil, List.nil_append, units, List.map_nil, List.sum_nil, after, relative, Nat.cast_zero, add_zero]
    cases recs ⟨j, since, mx, counts⟩ tail <;> rfl
  | cons i its ih =>
    have hu : units (i :: its) = i.units + units its := by simp [units]
    rw [hu] at h ⊢
    push_cast at h ⊢
    have hpos : 1 ≤ i.units := by cases i <;> simp only [Item.units] <;> first | omega | (split_ifs <;> omega)
    have hc : ∀ j', change ⟨j', since, mx, counts⟩ = ([], ⟨j', since, mx, counts⟩) := fun j' => change_none _ (by show since < mx; omega)
    have ih := ih (fun a ha => hf a (by simp [ha]))
    have hfi := hf i (by simp)
    rw [List.flatMap_cons, List.append_assoc]
    cases i with
    | point dx dy =>
      obtain ⟨f1, f2, f3, f4, f5⟩ := hfi
      have hb : ∀ v ∈ [(1 : Int), 2, 3], ¬ (twos8 dx = 0x80 ∧ twos8 dy = v) := by
        rintro v hv ⟨h1, h2⟩
        have e1 : dx = -128 := by unfold twos8 at h1; split_ifs at h1 <;> omega
        have e2 : dy = v := by
          simp only [List.mem_cons, List.not_mem_nil, or_false] at hv
          unfold twos8 at h2; split_ifs at h2 <;> omega
        exact f5 e1 (e2 ▸ hv)
      have hu8 : (if twos8 dx = 0x80 then (2 : Int) else 1) = ((Item.point dx dy).units : Int) := by
        have : twos8 dx = 0x80 ↔ dx = -128 := by unfold twos8; split_ifs <;> omega
        simp only [Item.units, this]
        split_ifs <;> rfl
      simp only [Item.bytes, List.cons_append, List.nil_append]
      rw [recs.eq_def]
      simp only [hc]
      simp only [hb 1 (by simp), hb 2 (by simp), hb 3 (by simp), if_false, s8 dx f1 f2, s8 dy f3 f4, hu8]
      rw [ih j (since + ((Item.point dx dy).units : Int)) (by omega)]
      rw [show since + (((Item.point dx dy).units : Int) + (units its : Int)) = since + ((Item.point dx dy).units : Int) + units its by ring]
      rw [show (fun l => [] ++ (⟨dx, dy, if j = true then JUMP else STITCH⟩ : Rec) :: l) = ([(⟨dx, dy, if j = true then JUMP else STITCH⟩ : Rec)] ++ ·) from rfl, mm]
      rfl
    | far dx dy =>
      obtain ⟨f1, f2, f3, f4⟩ := hfi
      simp only [Item.bytes, twos16, List.cons_append, List.nil_append]
      rw [recs.eq_def]
      simp only [hc]
      simp only [show ¬ ((1 : Int) = 3) by decide, show ¬ ((1 : Int) = 2) by decide, and_false, if_false, and_self, if_true, s16 dx f1 f2, s16 dy f3 f4]
      simp only [Item.units] at h ⊢
      push_cast at h ⊢
      rw [ih true (since + 3) (by omega)]
      rw [show since + (3 + (units its : Int)) = since + 3 + units its by ring]
      rw [show (fun l => [] ++ (⟨dx, dy, JUMP⟩ : Rec) :: l) = ([(⟨dx, dy, JUMP⟩ : Rec)] ++ ·) from rfl, mm]
      rfl
    | back =>
      simp only [Item.bytes, List.cons_append, List.nil_append]
      rw [recs.eq_def]
      simp only [hc]
      simp only [show ¬ ((2 : Int) = 3) by decide, and_false, if_false, and_self, if_true]
      simp only [Item.units, Nat.cast_one] at h ⊢
      rw [ih false (since + 1) (by omega)]
      rw [show since + (1 + (units its : Int)) = since + 1 + units its by ring, mm]
      rfl
    | pause =>
      simp only [Item.bytes, List.cons_append, List.nil_append]
      rw [recs.eq_def]
      simp only [hc]
      simp only [and_self, if_true]
      simp only [Item.units, Nat.cast_one] at h ⊢
      rw [ih j (since + 1) (by omega)]
      rw [show since + (1 + (units its : Int)) = since + 1 + units its by ring, mm]
      rfl

theorem recs_change (j : Bool) (mx c : Int) (hc : 0 < c) (counts : List Int) (b0 b1 : Int) (rest : Bytes) :
    recs ⟨j, mx, mx, c :: counts⟩ (b0 :: b1 :: rest) = (recs ⟨j, 0, c, counts⟩ (b0 :: b1 :: rest)).map (⟨0, 0, 5⟩ :: ·) := by
  have h1 : change ⟨j, mx, mx, c :: counts⟩ = ([⟨0, 0, 5⟩], ⟨j, 0, c, counts⟩) := by
    unfold change
    rw [if_pos (le_refl mx)]
    rfl
  have h2 : change ⟨j, 0, c, counts⟩ = ([], ⟨j, 0, c, counts⟩) := change_none _ hc
  have mm : ∀ (e : Except PyErr (List Rec)) (f g : List Rec → List Rec), (e.map f).map g = e.map (g ∘ f) := by
    intro e f g
    cases e <;> rfl
  rw [recs.eq_def, recs.eq_def]
  simp only [h1, h2]
  split_ifs
  · rw [mm]; rfl
  · rw [mm]; rfl
  · split
    · rw [mm]; rfl
    · rfl
  all_goals (rw [mm]; rfl)

/-- Reading the items of several colours, of which the first has been announced. -/
theorem recs_segs (segs : List (List Item)) (last : List Item) (hs : ∀ s ∈ segs ++ [last], s ≠ [] ∧ ∀ i ∈ s, i.Fits) (j : Bool)
    (counts : List Int) (m : Nat) (h : counts = segs.map (fun s => (units s : Int)) ++ [(m : Int)]) (hm : units last ≤ m) :
    recs ⟨j, 0, counts.headD 0, counts.tail⟩ ((segs ++ [last]).flatMap (fun s => s.flatMap Item.bytes)) =
      .ok (relative j (joined (segs ++ [last]))) := by
  have up : ∀ s : List Item, s ≠ [] → 0 < units s := by
    intro s h
    cases s with
    | nil => exact absurd rfl h
    | cons i l =>
      have : 1 ≤ i.units := by cases i <;> simp only [Item.units] <;> first | omega | (split_ifs <;> omega)
      simp only [units, List.map_cons, List.sum_cons]
      omega
  have two : ∀ s : List Item, s ≠ [] → ∀ t : Bytes, ∃ b0 b1 r, s.flatMap Item.bytes ++ t = b0 :: b1 :: r := by
    intro s h t
    cases s with
    | nil => exact absurd rfl h
    | cons i l => cases i <;> exact ⟨_, _, _, by simp only [List.flatMap_cons, Item.bytes, twos16, List.cons_append, List.append_assoc]; rfl⟩
  subst h
  induction segs generalizing j with
  | nil =>
    have hl := hs last (by simp)
    have r := recs_items last hl.2 j 0 m [] (by omega) []
    simp only [List.nil_append, List.map_nil, List.headD_cons, List.tail_cons, List.flatMap_cons, List.flatMap_nil, joined, List.map_cons,
      List.append_nil] at r ⊢
    rw [r]
    have e : ∀ s : State, recs s [] = .ok [] := fun s => by rw [recs.eq_def]
    rw [e]
    simp [Except.map, List.intercalate]
  | cons s segs ih =>
    have h0 := hs s (by simp)
    have ih := ih (fun a ha => hs a (by simp only [List.cons_append, List.mem_cons]; exact Or.inr ha))
    have hnext : ∃ (n : List Item) (more : List (List Item)), segs ++ [last] = n :: more ∧ n ≠ [] ∧
        ∃ c : Int, 0 < c ∧ segs.map (fun s => (units s : Int)) ++ [(m : Int)] = c :: (segs.map (fun s => (units s : Int)) ++ [(m : Int)]).tail := by
      cases segs with
      | nil =>
        have hl := hs last (by simp)
        refine ⟨last, [], rfl, hl.1, m, ?_, rfl⟩
        have := up last hl.1
        omega
      | cons n l =>
        have hl := hs n (by simp)
        refine ⟨n, l ++ [last], rfl, hl.1, units n, ?_, rfl⟩
        have := up n hl.1
        omega
    obtain ⟨n, more, e1, hn, c, hc, e2⟩ := hnext
    simp only [List.cons_append, List.map_cons, List.headD_cons, List.tail_cons, List.flatMap_cons]
    have r := recs_items s h0.2 j 0 (units s) (segs.map (fun s => (units s : Int)) ++ [(m : Int)]) (by omega)
      ((segs ++ [last]).flatMap (fun s => s.flatMap Item.bytes))
    rw [r]
    have ih := ih (after j s)
    rw [e2, List.headD_cons, List.tail_cons] at ih
    rw [e2, zero_add]
    rw [e1, List.flatMap_cons] at ih ⊢
    obtain ⟨b0, b1, q, e3⟩ := two n hn (more.flatMap (fun s => s.flatMap Item.bytes))
    rw [e3] at ih ⊢
    rw [recs_change _ _ _ hc, ih]
    have ej : joined (s :: n :: more) = s.map some ++ none :: joined (n :: more) := by
      simp [joined, List.intercalate]
    rw [ej, relative_append]
    rfl

theorem colours_spec (cols : List Colour) (last : Colour) (threads : List Thread)
    (hl : ∀ c ∈ cols, c.fill.length = 9) (hc : ∀ c ∈ cols ++ [last], c.count < 2 ^ 32 ∧ c.code < 256)
    (ht : (cols ++ [last]).map (fun c => shvThreads[c.code % 43]?) = threads.map some) (tail : Bytes) :
    colours (cols.length + 1) ((cols ++ [last]).flatMap Colour.bytes ++ tail) =
      .ok (((cols ++ [last]).map (fun c => (c.count : Int))).zip threads) := by
  have step : ∀ (c : Colour) (n : Nat) (t : Thread) (r : Bytes), c.count < 2 ^ 32 → shvThreads[c.code % 43]? = some t →
      colours (n + 1) (c.bytes ++ r) = (colours n ((c.bytes ++ r).drop 14)).map (fun l => ((c.count : Int), t) :: l) := by
    intro c n t r h1 h2
    have a : (readInt32be (c.bytes ++ r)).1 = some (c.count : Int) := by
      unfold Colour.bytes
      rw [List.append_assoc, List.append_assoc, (C02_read_write _ _).2.2.2.2.2.2]
      simp only [Option.some.injEq]
      omega
    have b : (readInt8 ((c.bytes ++ r).drop 4)).1 = some (c.code : Int) := rfl
    rw [colours, a, b]
    simp only
    rw [show ((c.code : Int) % 43).toNat = c.code % 43 by omega, h2]
  induction cols generalizing threads with
  | nil =>
    cases threads with
    | nil => simp at ht
    | cons t threads =>
      simp only [List.nil_append, List.map_cons, List.map_nil, List.cons.injEq] at ht
      have hn : threads = [] := by simpa using ht.2.symm
      subst hn
      have h0 := hc last (by simp)
      simp only [List.nil_append, List.flatMap_cons, List.flatMap_nil, List.append_nil, List.length_nil]
      rw [step last 0 t tail h0.1 ht.1]
      rfl
  | cons c cols ih =>
    cases threads with
    | nil => simp at ht
    | cons t threads =>
      simp only [List.cons_append, List.map_cons, List.cons.injEq] at ht
      have h0 := hc c (by simp)
      have h9 := hl c (by simp)
      have ih := ih threads (fun a ha => hl a (by simp [ha])) (fun a ha => hc a (by simp only [List.cons_append, List.mem_cons]; exact Or.inr ha)) ht.2
      simp only [List.cons_append, List.flatMap_cons, List.append_assoc, List.length_cons, List.map_cons, List.zip_cons_cons]
      rw [step c _ t _ h0.1 ht.1]
      have hlen : c.bytes.length = 14 := by
        unfold Colour.bytes
        simp [writeInt32be, h9]
      rw [List.drop_left' hlen, ih]
      rfl

/-! ## Theorems -/

/-- The parts of a file before the stitches. -/
theorem read_of_recs (head gap fill : Bytes) (name : Str) (w h : Nat) (cols : List Colour) (last : Colour) (threads : List Thread)
    (h1 : head.length = 0x56) (h2 : (utf8 name).length < 256) (h3 : gap.length = 4 + (h + 1) / 2 * w) (h4 : fill.length = 18)
    (h5 : ∀ c ∈ cols, c.fill.length = 9) (h6 : last.fill.length = 7)
    (h7 : ∀ c ∈ cols ++ [last], c.count < 2 ^ 32 ∧ c.code < 256)
    (h8 : (cols ++ [last]).map (fun c => shvThreads[c.code % 43]?) = threads.map some) (D : Bytes) (L : List (Option Item))
    (hrec : recs ⟨false, 0, ((cols ++ [last]).map (fun c => (c.count : Int))).headD 0, ((cols ++ [last]).map (fun c => (c.count : Int))).tail⟩ D =
      .ok (relative false L)) :
    read (head ++ ([((utf8 name).length : Int)] ++ (utf8 name ++ ([(w : Int), (h : Int)] ++ (gap ++ ([(cols.length + 1 : Int)] ++ (fill ++
        ((cols ++ [last]).flatMap Colour.bytes ++ D)))))))) = .ok ⟨some name, threads, drawn 0 0 false L⟩ := by
  have hcb : ((cols ++ [last]).flatMap Colour.bytes).length = 14 * (cols.length + 1) - 2 := by
    have : (cols.flatMap Colour.bytes).length = 14 * cols.length := by
      clear h7 h8 hrec
      induction cols with
      | nil => rfl
      | cons c cols ih =>
        have h9 := h5 c (by simp)
        rw [List.flatMap_cons, List.length_append, ih (fun a ha => h5 a (by simp [ha]))]
        simp only [Colour.bytes, writeInt32be, List.length_append, List.length_cons, List.length_nil, h9]
        omega
    rw [List.flatMap_append, List.length_append, this]
    simp only [List.flatMap_cons, List.flatMap_nil, List.append_nil, Colour.bytes, writeInt32be, List.length_append, List.length_cons,
      List.length_nil, h6]
    omega
  have hlt : threads.length = cols.length + 1 := by
    have := congrArg List.length h8
    simpa using this.symm
  have hcol := colours_spec cols last threads h5 h7 h8
  generalize hB : (cols ++ [last]).flatMap Colour.bytes = B at *
  generalize hN : utf8 name = N at *
  set F := head ++ ([(N.length : Int)] ++ (N ++ ([(w : Int), (h : Int)] ++ (gap ++ ([(cols.length + 1 : Int)] ++ (fill ++ (B ++ D)))))))
    with hF
  have d1 : F.drop 0x56 = [(N.length : Int)] ++ (N ++ ([(w : Int), (h : Int)] ++ (gap ++ ([(cols.length + 1 : Int)] ++ (fill ++ (B ++ D)))))) :=
    List.drop_left' h1
  have d2 : F.drop 0x57 = N ++ ([(w : Int), (h : Int)] ++ (gap ++ ([(cols.length + 1 : Int)] ++ (fill ++ (B ++ D))))) := by
    rw [show 0x57 = 0x56 + 1 from rfl, ← List.drop_drop, d1]
    rfl
  have d3 : F.drop (0x57 + N.length) = [(w : Int), (h : Int)] ++ (gap ++ ([(cols.length + 1 : Int)] ++ (fill ++ (B ++ D)))) := by
    rw [← List.drop_drop, d2, List.drop_left]
  have d4 : F.drop (0x57 + N.length + 1) = [(h : Int)] ++ (gap ++ ([(cols.length + 1 : Int)] ++ (fill ++ (B ++ D)))) := by
    rw [← List.drop_drop, d3]
    rfl
  have d5 : F.drop (0x57 + N.length + 2 + 4 + (h + 1) / 2 * w) = [(cols.length + 1 : Int)] ++ (fill ++ (B ++ D)) := by
    rw [show 0x57 + N.length + 2 + 4 + (h + 1) / 2 * w = 0x57 + N.length + (2 + gap.length) by omega, ← List.drop_drop, d3, ← List.drop_drop]
    exact List.drop_left
  have d6 : F.drop (0x57 + N.length + 2 + 4 + (h + 1) / 2 * w + 19) = B ++ D := by
    rw [show 0x57 + N.length + 2 + 4 + (h + 1) / 2 * w + 19 = 0x57 + N.length + 2 + 4 + (h + 1) / 2 * w + (1 + fill.length) by omega,
      ← List.drop_drop, d5, ← List.drop_drop]
    exact List.drop_left
  have d7 : F.drop (0x57 + N.length + 2 + 4 + (h + 1) / 2 * w + 19 + 14 * (cols.length + 1) - 2) = D := by
    rw [show 0x57 + N.length + 2 + 4 + (h + 1) / 2 * w + 19 + 14 * (cols.length + 1) - 2 =
      0x57 + N.length + 2 + 4 + (h + 1) / 2 * w + 19 + B.length by omega, ← List.drop_drop, d6, List.drop_left]
  have r1 : (readInt8 (F.drop 0x56)).1 = some (N.length : Int) := by rw [d1]; rfl
  have r3 : (readInt8 (F.drop (0x57 + N.length))).1 = some (w : Int) := by rw [d3]; rfl
  have r4 : (readInt8 (F.drop (0x57 + N.length + 1))).1 = some (h : Int) := by rw [d4]; rfl
  have r5 : (readInt8 (F.drop (0x57 + N.length + 2 + 4 + (h + 1) / 2 * w))).1 = some (cols.length + 1 : Int) := by rw [d5]; rfl
  have e1 : (((h : Int) + 1) / 2 * w).toNat = (h + 1) / 2 * w := by
    have : ((h : Int) + 1) / 2 * w = (((h + 1) / 2 * w : Nat) : Int) := by push_cast; rfl
    rw [this, Int.toNat_natCast]
  have e2 : ((cols.length : Int) + 1).toNat = cols.length + 1 := by omega
  unfold read
  rw [r1]
  simp only [Int.toNat_natCast]
  rw [r3, r4]
  simp only [e1]
  rw [r5]
  simp only [e2]
  rw [d6, d7, hcol D]
  set cs := (cols ++ [last]).map (fun c => (c.count : Int)) with hcs
  have hcl : cs.length = threads.length := by rw [hlt, hcs]; simp
  have z1 : (cs.zip threads).map Prod.fst = cs := List.map_fst_zip (by omega)
  have z2 : (cs.zip threads).map Prod.snd = threads := List.map_snd_zip (by omega)
  show (match cs.zip threads with
    | [] => Except.error PyErr.keyError
    | c :: rest => _) = _
  cases hz : cs.zip threads with
  | nil =>
    rw [hz] at z2
    rw [← z2] at hlt
    simp at hlt
  | cons c rest =>
    rw [hz] at z1 z2
    simp only
    have : recs ⟨false, 0, c.1, rest.map Prod.fst⟩ D = .ok (relative false L) := by
      rw [← hrec, ← z1]
      rfl
    rw [this, d2, List.take_left, ← hN, decodeUtf8_utf8, z2]
    simp only [Except.map, place_relative]

/-- **C87**: reading an SHV file with one or more colours (86 bytes, the name, the preview of the given width and height, the table of
colours, the stitches). The name and the threads of the 43-colour table (index modulo 43) are those of the header, and the stitches
are those of the items, with a colour change where each announced number of stitches is used up. -/
theorem C87_read (head gap fill : Bytes) (name : Str) (w h : Nat) (cols : List Colour) (last : Colour) (threads : List Thread)
    (segs : List (List Item)) (lastSeg : List Item)
    (h1 : head.length = 0x56) (h2 : (utf8 name).length < 256) (h3 : gap.length = 4 + (h + 1) / 2 * w) (h4 : fill.length = 18)
    (h5 : ∀ c ∈ cols, c.fill.length = 9) (h6 : last.fill.length = 7)
    (h7 : ∀ c ∈ cols ++ [last], c.count < 2 ^ 32 ∧ c.code < 256)
    (h8 : (cols ++ [last]).map (fun c => shvThreads[c.code % 43]?) = threads.map some)
    (h9 : cols.map Colour.count = segs.map units) (h10 : units lastSeg ≤ last.count)
    (h11 : ∀ s ∈ segs ++ [lastSeg], s ≠ [] ∧ ∀ i ∈ s, i.Fits) :
    read (head ++ ([((utf8 name).length : Int)] ++ (utf8 name ++ ([(w : Int), (h : Int)] ++ (gap ++ ([(cols.length + 1 : Int)] ++ (fill ++
        ((cols ++ [last]).flatMap Colour.bytes ++ (segs ++ [lastSeg]).flatMap (fun s => s.flatMap Item.bytes))))))))) =
      .ok ⟨some name, threads, drawn 0 0 false (joined (segs ++ [lastSeg]))⟩ := by
  refine read_of_recs head gap fill name w h cols last threads h1 h2 h3 h4 h5 h6 h7 h8 _ _ ?_
  refine recs_segs segs lastSeg h11 false ((cols ++ [last]).map (fun c => (c.count : Int))) last.count ?_ h10
  have : cols.map (fun c => (c.count : Int)) = segs.map (fun s => (units s : Int)) := by
    have := congrArg (List.map (fun n : Nat => (n : Int))) h9
    simpa [List.map_map, Function.comp_def] using this
  rw [List.map_append, this]
  rfl

/-- Behind the last announced number there might as well be a very large one. -/
theorem recs_last (b : Bytes) : ∀ (j : Bool) (since mx : Int) (counts : List Int),
    recs ⟨j, since, mx, counts ++ [0xFFFFFFFF]⟩ b = recs ⟨j, since, mx, counts⟩ b := by
  have hcase : ∀ (j : Bool) (since mx : Int) (counts : List Int),
      ∃ (l : List Rec) (since' mx' : Int) (c' : List Int), change ⟨j, since, mx, counts⟩ = (l, ⟨j, since', mx', c'⟩) ∧
        (change ⟨j, since, mx, counts ++ [0xFFFFFFFF]⟩ = (l, ⟨j, since', mx', c' ++ [0xFFFFFFFF]⟩) ∨
          change ⟨j, since, mx, counts ++ [0xFFFFFFFF]⟩ = (l, ⟨j, since', mx', c'⟩)) := by
    intro j since mx counts
    unfold change
    by_cases hc : since ≥ mx
    · simp only [if_pos hc]
      cases counts with
      | nil => exact ⟨_, _, _, _, rfl, .inr rfl⟩
      | cons c counts => exact ⟨_, _, _, _, rfl, .inl rfl⟩
    · simp only [if_neg hc]
      exact ⟨_, _, _, _, rfl, .inl rfl⟩
  suffices H : ∀ n (b : Bytes), b.length ≤ n → ∀ (j : Bool) (since mx : Int) (counts : List Int),
      recs ⟨j, since, mx, counts ++ [0xFFFFFFFF]⟩ b = recs ⟨j, since, mx, counts⟩ b from H b.length b le_rfl
  intro n
  induction n with
  | zero =>
    intro b hb
    rw [List.length_eq_zero_iff.mp (by omega : b.length = 0)]
    intros
    rw [recs.eq_def, recs.eq_def]
  | succ n ih =>
    intro b hb j since mx counts
    match b, hb with
    | [], _ => rw [recs.eq_def, recs.eq_def]
    | [_], _ => rw [recs.eq_def, recs.eq_def]
    | b0 :: b1 :: rest, hb =>
      simp only [List.length_cons] at hb
      obtain ⟨l, since', mx', c', e1, e2⟩ := hcase j since mx counts
      rw [recs.eq_def, recs.eq_def]
      rcases e2 with e2 | e2
      · simp only [e1, e2]
        split
        · rw [ih rest (by omega)]
        split
        · rw [ih rest (by omega)]
        split
        · split
          · rename_i r
            simp only [List.length_cons] at hb
            rw [ih r (by omega)]
          · rfl
        · rw [ih rest (by omega)]
      · simp only [e1, e2]

/-- **C87**: a file that goes on after its last announced colour: there is one more colour change, and what follows is in one colour
(for which the header has no thread), whatever its length (up to 2^32 - 1 stitches). -/
theorem C87_overrun (head gap fill : Bytes) (name : Str) (w h : Nat) (cols : List Colour) (last : Colour) (threads : List Thread)
    (segs : List (List Item)) (lastSeg more : List Item)
    (h1 : head.length = 0x56) (h2 : (utf8 name).length < 256) (h3 : gap.length = 4 + (h + 1) / 2 * w) (h4 : fill.length = 18)
    (h5 : ∀ c ∈ cols, c.fill.length = 9) (h6 : last.fill.length = 7)
    (h7 : ∀ c ∈ cols ++ [last], c.count < 2 ^ 32 ∧ c.code < 256)
    (h8 : (cols ++ [last]).map (fun c => shvThreads[c.code % 43]?) = threads.map some)
    (h9 : (cols ++ [last]).map Colour.count = (segs ++ [lastSeg]).map units) (h10 : units more ≤ 0xFFFFFFFF)
    (h11 : ∀ s ∈ segs ++ [lastSeg] ++ [more], s ≠ [] ∧ ∀ i ∈ s, i.Fits) :
    read (head ++ ([((utf8 name).length : Int)] ++ (utf8 name ++ ([(w : Int), (h : Int)] ++ (gap ++ ([(cols.length + 1 : Int)] ++ (fill ++
        ((cols ++ [last]).flatMap Colour.bytes ++ (segs ++ [lastSeg] ++ [more]).flatMap (fun s => s.flatMap Item.bytes))))))))) =
      .ok ⟨some name, threads, drawn 0 0 false (joined (segs ++ [lastSeg] ++ [more]))⟩ := by
  refine read_of_recs head gap fill name w h cols last threads h1 h2 h3 h4 h5 h6 h7 h8 _ _ ?_
  have hc : (cols ++ [last]).map (fun c => (c.count : Int)) = (segs ++ [lastSeg]).map (fun s => (units s : Int)) := by
    have := congrArg (List.map (fun n : Nat => (n : Int))) h9
    simpa [List.map_map, Function.comp_def] using this
  rw [hc]
  have := recs_segs (segs ++ [lastSeg]) more h11 false ((segs ++ [lastSeg]).map (fun s => (units s : Int)) ++ [0xFFFFFFFF]) 0xFFFFFFFF rfl h10
  rw [← this]
  have hne : (segs ++ [lastSeg]).map (fun s => (units s : Int)) ≠ [] := by simp
  generalize (segs ++ [lastSeg]).map (fun s => (units s : Int)) = C at *
  cases C with
  | nil => exact absurd rfl hne
  | cons c C => exact (recs_last _ false 0 c C).symm

/-- A file of two colours, with a long move in the first. -/
def demo : Bytes :=
  List.replicate 0x56 32 ++ ([2] ++ ([72, 105] ++ ([3, 5] ++ (List.replicate 13 0 ++ ([2] ++ (List.replicate 18 0 ++
    ([0, 0, 0, 6, 0, 0, 0, 0, 0, 0, 0, 0, 0, 0, 0, 0, 0, 1, 44, 0, 0, 0, 0, 0, 0, 0] ++
      [5, 251, 0x80, 1, 1, 0, 254, 0, 7, 7, 0x80, 2, 129, 0])))))))

example : (read demo).map (fun r => (r.name, r.threads.map Thread.color, r.stitches)) =
    .ok (some "Hi".toList, [0, 0x0000FF],
      [⟨5, -5, 0⟩, ⟨261, -517, 1⟩, ⟨268, -510, 1⟩, ⟨268, -510, 5⟩, ⟨141, -510, 0⟩, ⟨141, -510, 4⟩]) := by
  decide +kernel

def demoFirst : List Item := [.point 5 (-5), .far 256 (-512), .point 7 7, .back]
def demoSecond : List Item := [.point (-127) 0]
def demoColour : Colour := ⟨6, 0, List.replicate 9 0⟩
def demoLast : Colour := ⟨1, 44, List.replicate 7 0⟩

/-- The theorem applies to such a file. -/
example (t0 t1 : Thread) (ht : [shvThreads[0]?, shvThreads[1]?] = [some t0, some t1]) :
    read (List.replicate 0x56 32 ++ ([((utf8 "Hi".toList).length : Int)] ++ (utf8 "Hi".toList ++ ([((3 : Nat) : Int), ((5 : Nat) : Int)] ++
        (List.replicate 13 0 ++ ([([demoColour].length + 1 : Int)] ++ (List.replicate 18 0 ++
          (([demoColour] ++ [demoLast]).flatMap Colour.bytes ++ ([demoFirst] ++ [demoSecond]).flatMap (fun s => s.flatMap Item.bytes))))))))) =
      .ok ⟨some "Hi".toList, [t0, t1], drawn 0 0 false (joined ([demoFirst] ++ [demoSecond]))⟩ :=
  C87_read (List.replicate 0x56 32) (List.replicate 13 0) (List.replicate 18 0) "Hi".toList 3 5 [demoColour] demoLast [t0, t1] [demoFirst] demoSecond
    (by decide) (by decide) (by decide) (by decide) (by decide) (by decide) (by decide) (by simpa [demoColour, demoLast] using ht) (by decide) (by decide)
    (by
      intro s hs
      simp only [List.cons_append, List.nil_append, List.mem_cons, List.not_mem_nil, or_false] at hs
      unfold demoFirst demoSecond at hs
      rcases hs with rfl | rfl <;> refine ⟨by simp, ?_⟩ <;> intro i hi <;>
        simp only [List.mem_cons, List.not_mem_nil, or_false] at hi
      · rcases hi with rfl | rfl | rfl | rfl <;> simp [Item.Fits]
      · subst hi; simp [Item.Fits])

/-- A file that goes on after its only colour, with a point that begins like a mark. -/
example (t0 : Thread) (ht : shvThreads[1]? = some t0) :
    read (List.replicate 0x56 32 ++ ([((utf8 "Hi".toList).length : Int)] ++ (utf8 "Hi".toList ++ ([((3 : Nat) : Int), ((5 : Nat) : Int)] ++
        (List.replicate 13 0 ++ ([((([] : List Colour).length : Nat) + 1 : Int)] ++ (List.replicate 18 0 ++
          (([] ++ [demoLast]).flatMap Colour.bytes ++
            ([] ++ [[Item.point 5 5]] ++ [[Item.point (-128) 0, Item.point 1 1]]).flatMap (fun s : List Item => s.flatMap Item.bytes))))))))) =
      .ok ⟨some "Hi".toList, [t0], [⟨5, 5, 0⟩, ⟨5, 5, 5⟩, ⟨-123, 5, 0⟩, ⟨-122, 6, 0⟩, ⟨-122, 6, 4⟩]⟩ := by
  rw [C87_overrun (List.replicate 0x56 32) (List.replicate 13 0) (List.replicate 18 0) "Hi".toList 3 5 [] demoLast [t0] [] [.point 5 5]
    [.point (-128) 0, .point 1 1] (by decide) (by decide) (by decide) (by decide) (by decide) (by decide) (by decide)
    (by simpa [demoLast] using ht) (by decide) (by decide) (by
      intro s hs
      simp only [List.cons_append, List.nil_append, List.mem_cons, List.not_mem_nil, or_false] at hs
      rcases hs with rfl | rfl <;> refine ⟨by simp, ?_⟩ <;> intro i hi <;> simp only [List.mem_cons, List.not_mem_nil, or_false] at hi
      · subst hi; simp [Item.Fits]
      · rcases hi with rfl | rfl <;> simp [Item.Fits])]
  simp only [Except.ok.injEq, Found.mk.injEq, true_and]
  decide +kernel

/-- A header that announces no colours makes the reader raise a `KeyError`: the handler catches `IndexError` only. -/
theorem C87_no_colours_fails (head gap fill rest : Bytes) (name : Str) (w h : Nat) (h1 : head.length = 0x56)
    (h3 : gap.length = 4 + (h + 1) / 2 * w) :
    read (head ++ ([((utf8 name).length : Int)] ++ (utf8 name ++ ([(w : Int), (h : Int)] ++ (gap ++ ([0] ++ (fill ++ rest))))))) =
      .error .keyError := by
  generalize utf8 name = N at *
  set F := head ++ ([(N.length : Int)] ++ (N ++ ([(w : Int), (h : Int)] ++ (gap ++ ([0] ++ (fill ++ rest)))))) with hF
  have d1 : F.drop 0x56 = [(N.length : Int)] ++ (N ++ ([(w : Int), (h : Int)] ++ (gap ++ ([0] ++ (fill ++ rest))))) := List.drop_left' h1
  have d2 : F.drop 0x57 = N ++ ([(w : Int), (h : Int)] ++ (gap ++ ([0] ++ (fill ++ rest)))) := by
    rw [show 0x57 = 0x56 + 1 from rfl, ← List.drop_drop, d1]
    rfl
  have d3 : F.drop (0x57 + N.length) = [(w : Int), (h : Int)] ++ (gap ++ ([0] ++ (fill ++ rest))) := by
    rw [← List.drop_drop, d2, List.drop_left]
  have d4 : F.drop (0x57 + N.length + 1) = [(h : Int)] ++ (gap ++ ([0] ++ (fill ++ rest))) := by
    rw [← List.drop_drop, d3]
    rfl
  have d5 : F.drop (0x57 + N.length + 2 + 4 + (h + 1) / 2 * w) = [0] ++ (fill ++ rest) := by
    rw [show 0x57 + N.length + 2 + 4 + (h + 1) / 2 * w = 0x57 + N.length + (2 + gap.length) by omega, ← List.drop_drop, d3, ← List.drop_drop]
    exact List.drop_left
  have r1 : (readInt8 (F.drop 0x56)).1 = some (N.length : Int) := by rw [d1]; rfl
  have r3 : (readInt8 (F.drop (0x57 + N.length))).1 = some (w : Int) := by rw [d3]; rfl
  have r4 : (readInt8 (F.drop (0x57 + N.length + 1))).1 = some (h : Int) := by rw [d4]; rfl
  have r5 : (readInt8 (F.drop (0x57 + N.length + 2 + 4 + (h + 1) / 2 * w))).1 = some 0 := by rw [d5]; rfl
  have e1 : (((h : Int) + 1) / 2 * w).toNat = (h + 1) / 2 * w := by
    have : ((h : Int) + 1) / 2 * w = (((h + 1) / 2 * w : Nat) : Int) := by push_cast; rfl
    rw [this, Int.toNat_natCast]
  unfold read
  rw [r1]
  simp only [Int.toNat_natCast]
  rw [r3, r4]
  simp only [e1]
  rw [r5]
  rfl

/-- A colour that announces no stitches nevertheless gets one: in this file of three colours with one, no and one stitch the second
stitch is sewn with the second thread. -/
theorem C87_empty_colour_fails :
    (read ((List.replicate 0x56 32 : Bytes) ++ ([0] ++ ([0, 0] ++ (List.replicate 4 0 ++ ([3] ++ (List.replicate 18 0 ++
      ([0, 0, 0, 1, 0, 0, 0, 0, 0, 0, 0, 0, 0, 0] ++ [0, 0, 0, 0, 0, 0, 0, 0, 0, 0, 0, 0, 0, 0] ++ [0, 0, 0, 1, 0, 0, 0, 0, 0, 0, 0, 0] ++
        [1, 1, 1, 1])))))))).map Found.stitches =
      .ok [⟨1, 1, 0⟩, ⟨1, 1, 5⟩, ⟨2, 2, 0⟩, ⟨2, 2, 4⟩] := by
  decide +kernel

/-- A file cut inside a long move makes the reader raise a `TypeError`. -/
theorem C87_cut_fails (s : State) (rest : Bytes) (h : rest.length < 4) : recs s (0x80 :: 1 :: rest) = .error .typeError := by
  rw [recs.eq_def]
  simp only [show ¬ ((1 : Int) = 3) by decide, show ¬ ((1 : Int) = 2) by decide, and_false, if_false, and_self, if_true]
  match rest, h with
  | [], _ => rfl
  | [_], _ => rfl
  | [_, _], _ => rfl
  | [_, _, _], _ => rfl
  | _ :: _ :: _ :: _ :: _, h => exact absurd h (by simp only [List.length_cons]; omega)

end Shv
end Emb
