import Verif.Heap
import Mathlib.Data.List.Nodup

/-!
# Properties C53 and C54: which patterns a method call can change

`view p` is what a user sees of pattern `p`: its stitches, threads and previous position.
-/

namespace Emb
namespace Heap

open Blocks

variable {τ : Type}

/-! ## Specification -/

/-- Every address points into the memory. -/
def World.Valid (w : World τ) : Prop := ∀ (p : Nat) (o : Obj τ), w.pats[p]? = some o → ∀ r ∈ o.refs, r < w.cells.length

/-- No pattern of `K` shares a stitch object with a pattern outside `K`. -/
def World.Apart (K : Nat → Prop) (w : World τ) : Prop :=
  ∀ (p q : Nat) (o o2 : Obj τ), ¬K p → K q → w.pats[p]? = some o → w.pats[q]? = some o2 → ∀ r ∈ o.refs, r ∉ o2.refs

/-- The pattern a call works on (`none`: it only makes a new one). -/
def Op.target : Op τ → Option Nat
  | .new => none
  | .copy _ => none
  | .plus _ _ => none
  | .derive _ _ => none
  | .addPattern p _ _ _ _ _ _ => some p
  | .abs p _ _ _ => some p
  | .rel p _ _ _ => some p
  | .command p _ _ _ => some p
  | .prepend p _ _ _ => some p
  | .insert p _ _ _ _ => some p
  | .insertRel p _ _ _ _ => some p
  | .setItem p _ _ => some p
  | .addThread p _ => some p
  | .fix p => some p
  | .clear p => some p
  | .frameEject p => some p
  | .trims p _ _ _ => some p
  | .translate p _ _ => some p
  | .transform p _ => some p
  | .center p => some p
  | .stopAsDup p _ => some p
  | .dupAsStop p => some p

/-- The patterns whose stitch objects a call may write into or hand to another pattern. -/
def Op.touches : Op τ → List Nat
  | .copy p => [p]
  | .plus p q => [p, q]
  | .addPattern p q _ _ _ _ _ => [p, q]
  | op => op.target.toList

/-- Calls that do not write into existing stitch objects: those that only add, insert, replace, remove or copy entries. -/
def Op.listOnly : Op τ → Prop
  | .plus _ _ => False
  | .addPattern _ _ _ _ _ _ _ => False
  | .translate _ _ _ => False
  | .transform _ _ => False
  | .center _ => False
  | .stopAsDup _ _ => False
  | .dupAsStop _ => False
  | _ => True

/-! ## Memory lemmas -/

theorem load_append (cells ext : List Stitch) (r : Nat) (h : r < cells.length) : load (cells ++ ext) r = load cells r := by
  unfold load; rw [List.getElem?_append_left h]

theorem load_set_ne (cells : List Stitch) (i r : Nat) (st : Stitch) (h : i ≠ r) : load (cells.set i st) r = load cells r := by
  unfold load; rw [List.getElem?_set_ne h]

theorem load_set_eq (cells : List Stitch) (i : Nat) (st : Stitch) (h : i < cells.length) : load (cells.set i st) i = st := by
  unfold load; rw [List.getElem?_set_self h]; rfl

theorem alloc_cells (cells : List Stitch) (refs : List Nat) (es : List Entry) : ∃ ext, (alloc cells refs es).1 = cells ++ ext := by
  induction es generalizing cells with
  | nil => exact ⟨[], by simp [alloc]⟩
  | cons e es ih =>
    rcases e with i | st
    · exact ih cells
    · obtain ⟨ext, h⟩ := ih (cells ++ [st])
      exact ⟨st :: ext, by simp [alloc, h]⟩

theorem alloc_refs (cells : List Stitch) (refs : List Nat) (es : List Entry) :
    ∀ r ∈ (alloc cells refs es).2, r ∈ refs ∨ (cells.length ≤ r ∧ r < (alloc cells refs es).1.length) := by
  induction es generalizing cells with
  | nil => simp [alloc]
  | cons e es ih =>
    rcases e with i | st
    · intro r hr
      simp only [alloc, List.mem_append, Option.mem_toList] at hr ⊢
      rcases hr with hr | hr
      · exact .inl (List.mem_of_getElem? hr)
      · exact ih cells r hr
    · intro r hr
      simp only [alloc, List.mem_cons] at hr ⊢
      obtain ⟨ext, h⟩ := alloc_cells (cells ++ [st]) refs es
      rcases hr with rfl | hr
      · right; rw [h]; simp
      · rcases ih (cells ++ [st]) r hr with h1 | ⟨h1, h2⟩
        · exact .inl h1
        · right; refine ⟨?_, h2⟩; simp at h1; omega

theorem sweep_length {σ : Type} (f : σ → Stitch → σ × Stitch) (s : σ) (cells : List Stitch) (rs : List Nat) :
    (sweep f s cells rs).2.length = cells.length := by
  induction rs generalizing s cells with
  | nil => rfl
  | cons r rs ih => rw [sweep, ih]; simp

theorem sweep_other {σ : Type} (f : σ → Stitch → σ × Stitch) (s : σ) (cells : List Stitch) (rs : List Nat) (r : Nat) (h : r ∉ rs) :
    load (sweep f s cells rs).2 r = load cells r := by
  induction rs generalizing s cells with
  | nil => rfl
  | cons a rs ih =>
    simp only [List.mem_cons, not_or] at h
    rw [sweep, ih _ _ h.2, load_set_ne _ _ _ _ (Ne.symm h.1)]

theorem dupSweep_spec (eqv : τ → τ → Bool) (cells : List Stitch) (threads : List τ) (ti : Nat) (init : Bool) (last : Option Nat)
    (rs : List Nat) :
    (dupSweep eqv cells threads ti init last rs).1.length = cells.length ∧
    ∀ r, r ∉ rs → last ≠ some r → load (dupSweep eqv cells threads ti init last rs).1 r = load cells r := by
  induction rs generalizing cells threads ti init last with
  | nil => exact ⟨rfl, fun _ _ _ => rfl⟩
  | cons a rs ih =>
    have skip : ∀ cells threads ti init, (dupSweep eqv cells threads ti init last rs).1.length = cells.length ∧
        ∀ r, r ∉ a :: rs → last ≠ some r → load (dupSweep eqv cells threads ti init last rs).1 r = load cells r :=
      fun cells threads ti init => ⟨(ih cells threads ti init last).1, fun r hr hl => (ih cells threads ti init last).2 r
        (fun h => hr (List.mem_cons_of_mem _ h)) hl⟩
    rw [dupSweep.eq_def]
    dsimp only
    split
    · split
      · split
        · exact skip _ _ _ _
        · rename_i i
          split
          · exact skip _ _ _ _
          · split
            · split
              · obtain ⟨h1, h2⟩ := skip (cells.set i { load cells i with cmd := STOP }) (threads.eraseIdx ti) ti false
                refine ⟨by rw [h1]; simp, fun r hr hl => ?_⟩
                rw [h2 r hr hl, load_set_ne _ _ _ _ (fun e => hl (by rw [e]))]
              · exact skip _ _ _ _
            · exact ⟨rfl, fun _ _ _ => rfl⟩
      · exact skip _ _ _ _
    · split
      · refine ⟨(ih _ _ _ _ _).1, fun r hr hl => (ih _ _ _ _ _).2 r (fun h => hr (List.mem_cons_of_mem _ h)) ?_⟩
        simp only [List.mem_cons, not_or] at hr
        intro e; injection e with e; exact hr.1 e.symm
      · exact skip _ _ _ _

theorem view_eq {w w' : World τ} {q : Nat} (h : w'.pats[q]? = w.pats[q]?)
    (hl : ∀ o, w.pats[q]? = some o → ∀ r ∈ o.refs, load w'.cells r = load w.cells r) : w'.view q = w.view q := by
  unfold World.view
  rw [h]
  cases e : w.pats[q]? with
  | none => rfl
  | some o =>
    simp only [Option.map_some, Option.some.injEq, Obj.view, Build.mk.injEq, and_true]
    exact List.map_congr_left (hl o e)

/-! ## Separate groups -/

/-- What must hold of the memory for the patterns of `K` to be safe from calls on others. -/
def World.Inv (K : Nat → Prop) (w : World τ) : Prop := w.Valid ∧ (∀ q, K q → q < w.pats.length) ∧ w.Apart K

/-- From `w` to `w'` the patterns of `K` keep their stitches, and remain safe. -/
def Safe (K : Nat → Prop) (w w' : World τ) : Prop := w.Inv K → w'.Inv K ∧ ∀ q, K q → w'.view q = w.view q

theorem Safe.refl (K : Nat → Prop) (w : World τ) : Safe K w w := fun h => ⟨h, fun _ _ => rfl⟩

theorem Safe.trans {K : Nat → Prop} {a b c : World τ} (h1 : Safe K a b) (h2 : Safe K b c) : Safe K a c := fun h =>
  ⟨(h2 (h1 h).1).1, fun q hq => ((h2 (h1 h).1).2 q hq).trans ((h1 h).2 q hq)⟩

/-- Address `r` belongs to a pattern outside `K`. -/
def World.Loose (K : Nat → Prop) (w : World τ) (r : Nat) : Prop := ∃ q oq, ¬K q ∧ w.pats[q]? = some oq ∧ r ∈ oq.refs

theorem safe_of {K : Nat → Prop} {w w' : World τ} (hpats : ∀ q, K q → q < w.pats.length → w'.pats[q]? = w.pats[q]?)
    (hlen : w.cells.length ≤ w'.cells.length) (hplen : w.pats.length ≤ w'.pats.length)
    (hload : ∀ r < w.cells.length, w.Loose K r ∨ load w'.cells r = load w.cells r)
    (hrefs : ∀ q o, ¬K q → w'.pats[q]? = some o → ∀ r ∈ o.refs, w.Loose K r ∨ (w.cells.length ≤ r ∧ r < w'.cells.length)) :
    Safe K w w' := by
  intro ⟨h1, h2, h3⟩
  refine ⟨⟨?_, fun q hq => lt_of_lt_of_le (h2 q hq) hplen, ?_⟩, ?_⟩
  · intro p o hp r hr
    by_cases k : K p
    · rw [hpats p k (h2 p k)] at hp
      exact lt_of_lt_of_le (h1 p o hp r hr) hlen
    · rcases hrefs p o k hp r hr with ⟨q, oq, _, hq, hr⟩ | ⟨_, h⟩
      · exact lt_of_lt_of_le (h1 q oq hq r hr) hlen
      · exact h
  · intro p q o o2 kp kq hp hq r hr hr2
    rw [hpats q kq (h2 q kq)] at hq
    rcases hrefs p o kp hp r hr with ⟨p', o', kp', hp', hr'⟩ | ⟨h, _⟩
    · exact h3 p' q o' o2 kp' kq hp' hq r hr' hr2
    · exact absurd (h1 q o2 hq r hr2) (by omega)
  · intro q kq
    refine view_eq (hpats q kq (h2 q kq)) (fun o ho r hr => ?_)
    rcases hload r (h1 q o ho r hr) with ⟨p', o', kp', hp', hr'⟩ | h
    · exact absurd hr (h3 p' q o' o kp' kq hp' ho r hr')
    · exact h

/-- `safe_of` for a changed object. -/
theorem safe_set {K : Nat → Prop} {w : World τ} {p : Nat} (hp : ¬K p) (cells : List Stitch) (o' : Obj τ)
    (hlen : w.cells.length ≤ cells.length)
    (hload : ∀ r < w.cells.length, w.Loose K r ∨ load cells r = load w.cells r)
    (hrefs : ∀ r ∈ o'.refs, w.Loose K r ∨ (w.cells.length ≤ r ∧ r < cells.length)) :
    Safe K w ⟨cells, w.pats.set p o'⟩ := by
  refine safe_of ?_ hlen (by simp) hload ?_
  · intro q kq _
    show (w.pats.set p o')[q]? = _
    rw [List.getElem?_set_ne (fun e => hp (by rw [e]; exact kq))]
  · intro q o kq ho r hr
    have ho : (w.pats.set p o')[q]? = some o := ho
    by_cases e : p = q
    · subst e
      rw [List.getElem?_set] at ho
      simp only [if_true] at ho
      split at ho
      · injection ho with ho; subst ho; exact hrefs r hr
      · cases ho
    · rw [List.getElem?_set_ne e] at ho
      exact .inl ⟨q, o, kq, ho, hr⟩

theorem safe_push {K : Nat → Prop} {w : World τ} (cells : List Stitch) (o' : Obj τ)
    (hlen : w.cells.length ≤ cells.length)
    (hload : ∀ r < w.cells.length, w.Loose K r ∨ load cells r = load w.cells r)
    (hrefs : ∀ r ∈ o'.refs, w.Loose K r ∨ (w.cells.length ≤ r ∧ r < cells.length)) :
    Safe K w ⟨cells, w.pats ++ [o']⟩ := by
  refine safe_of ?_ hlen (by simp) hload ?_
  · intro q kq hq
    show (w.pats ++ [o'])[q]? = _
    rw [List.getElem?_append_left hq]
  · intro q o kq ho r hr
    have ho : (w.pats ++ [o'])[q]? = some o := ho
    rw [List.getElem?_append] at ho
    split at ho
    · exact .inl ⟨q, o, kq, ho, hr⟩
    · rw [List.getElem?_singleton] at ho
      split at ho
      · injection ho with ho; subst ho; exact hrefs r hr
      · cases ho

theorem safe_relist {K : Nat → Prop} {w : World τ} {p : Nat} (hp : ¬K p) (f : List Stitch → List Entry) : Safe K w (w.relist p f) := by
  unfold World.relist
  cases e : w.pats[p]? with
  | none => exact .refl K w
  | some o =>
    dsimp only
    obtain ⟨ext, h⟩ := alloc_cells w.cells o.refs (f (o.refs.map (load w.cells)))
    refine safe_set hp _ _ (by rw [h]; simp) (fun r hr => .inr (by rw [h, load_append _ _ _ hr])) (fun r hr => ?_)
    rcases alloc_refs _ _ _ r hr with h | h
    · exact .inl ⟨p, o, hp, e, h⟩
    · exact .inr h

theorem safe_adjust {K : Nat → Prop} {w : World τ} {p : Nat} (hp : ¬K p) (f : Build τ → List τ × ℚ × ℚ) : Safe K w (w.adjust p f) := by
  unfold World.adjust
  cases e : w.pats[p]? with
  | none => exact .refl K w
  | some o => exact safe_set hp _ _ (Nat.le_refl _) (fun r hr => .inr rfl) (fun r hr => .inl ⟨p, o, hp, e, hr⟩)

theorem safe_sweep {K : Nat → Prop} {w : World τ} {p : Nat} (hp : ¬K p) {σ : Type} (k : Nat) (f : σ → Stitch → σ × Stitch)
    (init : Obj τ → σ) (threads : σ → List τ) : Safe K w (w.sweep p k f init threads) := by
  unfold World.sweep
  cases e : w.pats[p]? with
  | none => exact .refl K w
  | some o =>
    refine safe_set hp _ _ (by simp [sweep_length]) (fun r hr => ?_) (fun r hr => .inl ⟨p, o, hp, e, hr⟩)
    by_cases h : r ∈ o.refs
    · exact .inl ⟨p, o, hp, e, h⟩
    · exact .inr (sweep_other _ _ _ _ _ (fun h2 => h (List.mem_of_mem_drop h2)))

theorem safe_abs {K : Nat → Prop} {w : World τ} {p : Nat} (hp : ¬K p) (c : Int) (x y : ℚ) : Safe K w (w.abs p c x y) :=
  (safe_relist hp _).trans (safe_adjust hp _)

theorem safe_rel {K : Nat → Prop} {w : World τ} {p : Nat} (hp : ¬K p) (c : Int) (x y : ℚ) : Safe K w (w.rel p c x y) := by
  unfold World.rel
  cases w.pats[p]? with
  | none => exact .refl K w
  | some o => exact safe_abs hp _ _ _

theorem safe_fresh {K : Nat → Prop} {w : World τ} (b : Build τ) : Safe K w (w.fresh b) := by
  refine safe_push _ _ (by simp) (fun r hr => .inr (load_append _ _ _ hr)) (fun r hr => .inr ?_)
  simp only [List.mem_map, List.mem_range] at hr
  obtain ⟨i, hi, rfl⟩ := hr
  simp only [List.length_append]
  omega

theorem safe_copy {K : Nat → Prop} {w : World τ} {p : Nat} (hp : ¬K p) : Safe K w (w.copy p) := by
  unfold World.copy
  cases e : w.pats[p]? with
  | none => exact .refl K w
  | some o => exact safe_push _ _ (Nat.le_refl _) (fun r hr => .inr rfl) (fun r hr => .inl ⟨p, o, hp, e, hr⟩)

theorem safe_join {K : Nat → Prop} {w : World τ} {p q : Nat} (hp : ¬K p) (hq : ¬K q) : Safe K w (w.join p q) := by
  unfold World.join
  cases e : w.pats[p]? with
  | none => exact .refl K w
  | some o =>
    cases e2 : w.pats[q]? with
    | none => exact .refl K w
    | some o2 =>
      refine safe_set hp _ _ (by simp [sweep_length]) (fun r hr => ?_) (fun r hr => ?_)
      · by_cases h : r ∈ o2.refs
        · exact .inl ⟨q, o2, hq, e2, h⟩
        · exact .inr (sweep_other _ _ _ _ _ h)
      · simp only [List.mem_append] at hr
        rcases hr with h | h
        · exact .inl ⟨p, o, hp, e, h⟩
        · exact .inl ⟨q, o2, hq, e2, h⟩

theorem safe_append {K : Nat → Prop} {w : World τ} {p q : Nat} (hp : ¬K p) (hq : ¬K q) (eqv : τ → τ → Bool) :
    Safe K w (w.append eqv p q) := by
  unfold World.append
  split
  · split
    · exact safe_join hp hq
    · split
      · exact .refl K w
      · split
        · exact (safe_adjust hp _).trans (safe_join hp hq)
        · exact ((safe_adjust hp _).trans (safe_rel hp _ _ _)).trans (safe_join hp hq)
  · exact .refl K w

theorem safe_addPattern {K : Nat → Prop} {w : World τ} {p q : Nat} (hp : ¬K p) (hq : ¬K q) (eqv : τ → τ → Bool) (filler : Nat → τ)
    (dx dy sx sy r : Option ℚ) : Safe K w (w.addPattern eqv filler p q dx dy sx sy r) := by
  unfold World.addPattern
  split
  · exact .refl K w
  · split
    · exact .refl K w
    · exact (((safe_relist hp _).trans (safe_relist hp _)).trans (safe_adjust hp _)).trans (safe_append hp hq eqv)

theorem safe_step {K : Nat → Prop} {w : World τ} (eqv : τ → τ → Bool) (filler : Nat → τ) (op : Op τ) (h : ∀ p ∈ op.touches, ¬K p) :
    Safe K w (w.step eqv filler op) := by
  cases op with
  | new => exact safe_fresh _
  | copy p => exact safe_copy (h p (by simp [Op.touches]))
  | plus p q =>
    show Safe K w (w.plus eqv filler p q)
    unfold World.plus
    split
    · intro hi
      have hn : ¬K w.pats.length := fun k => absurd (hi.2.1 _ k) (by omega)
      exact ((safe_copy (h p (by simp [Op.touches]))).trans (safe_addPattern hn (h q (by simp [Op.touches])) _ _ _ _ _ _ _)) hi
    · exact .refl K w
  | addPattern p q dx dy sx sy r =>
    exact safe_addPattern (h p (by simp [Op.touches])) (h q (by simp [Op.touches])) _ _ _ _ _ _ _
  | derive p f =>
    show Safe K w (w.derive p f)
    unfold World.derive
    split
    · exact .refl K w
    · exact safe_fresh _
  | abs p c x y => exact safe_abs (h p (by simp [Op.touches, Op.target])) _ _ _
  | rel p c x y => exact safe_rel (h p (by simp [Op.touches, Op.target])) _ _ _
  | command p c x y => exact safe_relist (h p (by simp [Op.touches, Op.target])) _
  | prepend p c x y => exact safe_relist (h p (by simp [Op.touches, Op.target])) _
  | insert p i c x y => exact safe_relist (h p (by simp [Op.touches, Op.target])) _
  | insertRel p i c x y =>
    have hp := h p (by simp [Op.touches, Op.target])
    show Safe K w (w.insertRel p i c x y)
    unfold World.insertRel
    split
    · exact .refl K w
    · dsimp only
      split_ifs <;> first | exact safe_relist hp _ | exact safe_rel hp _ _ _ | exact .refl K w
  | setItem p i st => exact safe_relist (h p (by simp [Op.touches, Op.target])) _
  | addThread p t => exact safe_adjust (h p (by simp [Op.touches, Op.target])) _
  | fix p => exact safe_adjust (h p (by simp [Op.touches, Op.target])) _
  | clear p =>
    have hp := h p (by simp [Op.touches, Op.target])
    exact (safe_relist hp _).trans (safe_adjust hp _)
  | frameEject p => exact safe_relist (h p (by simp [Op.touches, Op.target])) _
  | trims p j d c => exact safe_relist (h p (by simp [Op.touches, Op.target])) _
  | translate p x y => exact safe_sweep (h p (by simp [Op.touches, Op.target])) _ _ _ _
  | transform p m => exact safe_sweep (h p (by simp [Op.touches, Op.target])) _ _ _ _
  | center p =>
    have hp := h p (by simp [Op.touches, Op.target])
    show Safe K w (w.center p)
    unfold World.center
    split
    · exact .refl K w
    · split
      · exact .refl K w
      · exact safe_sweep hp _ _ _ _
  | stopAsDup p c => exact safe_sweep (h p (by simp [Op.touches, Op.target])) _ _ _ _
  | dupAsStop p =>
    have hp := h p (by simp [Op.touches, Op.target])
    show Safe K w (w.dupAsStop eqv p)
    unfold World.dupAsStop
    cases e : w.pats[p]? with
    | none => exact .refl K w
    | some o =>
      have hs := dupSweep_spec eqv w.cells o.threads 0 true none o.refs
      refine safe_set hp _ _ (by rw [hs.1]) (fun r hr => ?_) (fun r hr => .inl ⟨p, o, hp, e, hr⟩)
      by_cases hm : r ∈ o.refs
      · exact .inl ⟨p, o, hp, e, hm⟩
      · exact .inr (hs.2 r hm (by simp))

/-- Whatever program runs on patterns outside `K`, the patterns of `K` are unchanged, provided they share no stitch objects with
the others at the start. -/
theorem run_safe {K : Nat → Prop} (eqv : τ → τ → Bool) (filler : Nat → τ) (ops : List (Op τ)) (w : World τ)
    (h : ∀ op ∈ ops, ∀ p ∈ op.touches, ¬K p) : Safe K w (w.run eqv filler ops) := by
  induction ops generalizing w with
  | nil => exact .refl K w
  | cons op ops ih =>
    exact (safe_step eqv filler op (h op (by simp))).trans (ih _ (fun o ho => h o (by simp [ho])))

/-! ## Calls that only change lists -/

/-- From `w` to `w'` cells are only added, and the objects in `K` are the same. -/
def Keep (K : Nat → Prop) (w w' : World τ) : Prop :=
  w.Valid ∧ (∀ q, K q → q < w.pats.length) → (w'.Valid ∧ ∀ q, K q → q < w'.pats.length) ∧ ∀ q, K q → w'.view q = w.view q

theorem Keep.refl (K : Nat → Prop) (w : World τ) : Keep K w w := fun h => ⟨h, fun _ _ => rfl⟩

theorem Keep.trans {K : Nat → Prop} {a b c : World τ} (h1 : Keep K a b) (h2 : Keep K b c) : Keep K a c := fun h =>
  ⟨(h2 (h1 h).1).1, fun q hq => ((h2 (h1 h).1).2 q hq).trans ((h1 h).2 q hq)⟩

theorem keep_of {K : Nat → Prop} {w : World τ} (ext : List Stitch) (pats : List (Obj τ)) (hlen : w.pats.length ≤ pats.length)
    (hpats : ∀ q, K q → q < w.pats.length → pats[q]? = w.pats[q]?)
    (hrefs : ∀ (q : Nat) (o : Obj τ), pats[q]? = some o → ∀ r ∈ o.refs, (∃ (q : Nat) (oq : Obj τ), w.pats[q]? = some oq ∧ r ∈ oq.refs) ∨ r < (w.cells ++ ext).length) :
    Keep K w ⟨w.cells ++ ext, pats⟩ := by
  intro ⟨h1, h2⟩
  refine ⟨⟨?_, fun q hq => lt_of_lt_of_le (h2 q hq) hlen⟩, fun q kq => ?_⟩
  · intro q o hq r hr
    rcases hrefs q o hq r hr with ⟨q', oq, hq', hr'⟩ | h
    · have := h1 q' oq hq' r hr'
      simp only [List.length_append]; omega
    · exact h
  · exact view_eq (hpats q kq (h2 q kq)) (fun o ho r hr => load_append _ _ _ (h1 q o ho r hr))

theorem keep_set {K : Nat → Prop} {w : World τ} {p : Nat} (hp : ¬K p) (ext : List Stitch) (o' : Obj τ)
    (hrefs : ∀ r ∈ o'.refs, (∃ (q : Nat) (oq : Obj τ), w.pats[q]? = some oq ∧ r ∈ oq.refs) ∨ r < (w.cells ++ ext).length) :
    Keep K w ⟨w.cells ++ ext, w.pats.set p o'⟩ := by
  refine keep_of ext _ (by simp) ?_ ?_
  · intro q kq _
    rw [List.getElem?_set_ne (fun e => hp (by rw [e]; exact kq))]
  · intro q o ho r hr
    by_cases e : p = q
    · subst e
      rw [List.getElem?_set] at ho
      simp only [if_true] at ho
      split at ho
      · injection ho with ho; subst ho; exact hrefs r hr
      · cases ho
    · rw [List.getElem?_set_ne e] at ho
      exact .inl ⟨q, o, ho, hr⟩

theorem keep_push {K : Nat → Prop} {w : World τ} (ext : List Stitch) (o' : Obj τ)
    (hrefs : ∀ r ∈ o'.refs, (∃ (q : Nat) (oq : Obj τ), w.pats[q]? = some oq ∧ r ∈ oq.refs) ∨ r < (w.cells ++ ext).length) :
    Keep K w ⟨w.cells ++ ext, w.pats ++ [o']⟩ := by
  refine keep_of ext _ (by simp) ?_ ?_
  · intro q kq hq
    rw [List.getElem?_append_left hq]
  · intro q o ho r hr
    rw [List.getElem?_append] at ho
    split at ho
    · exact .inl ⟨q, o, ho, hr⟩
    · rw [List.getElem?_singleton] at ho
      split at ho
      · injection ho with ho; subst ho; exact hrefs r hr
      · cases ho

theorem keep_relist {K : Nat → Prop} {w : World τ} {p : Nat} (hp : ¬K p) (f : List Stitch → List Entry) : Keep K w (w.relist p f) := by
  unfold World.relist
  cases e : w.pats[p]? with
  | none => exact .refl K w
  | some o =>
    dsimp only
    obtain ⟨ext, h⟩ := alloc_cells w.cells o.refs (f (o.refs.map (load w.cells)))
    have h2 := alloc_refs w.cells o.refs (f (o.refs.map (load w.cells)))
    rw [h] at h2 ⊢
    refine keep_set hp ext _ (fun r hr => ?_)
    rcases h2 r hr with h | h
    · exact .inl ⟨p, o, e, h⟩
    · exact .inr h.2

theorem keep_adjust {K : Nat → Prop} {w : World τ} {p : Nat} (hp : ¬K p) (f : Build τ → List τ × ℚ × ℚ) : Keep K w (w.adjust p f) := by
  unfold World.adjust
  cases e : w.pats[p]? with
  | none => exact .refl K w
  | some o =>
    have := keep_set (w := w) hp [] { o with threads := (f (o.view w.cells)).1, px := (f (o.view w.cells)).2.1, py := (f (o.view w.cells)).2.2 }
      (fun r hr => .inl ⟨p, o, e, hr⟩)
    rw [List.append_nil] at this
    exact this

theorem keep_abs {K : Nat → Prop} {w : World τ} {p : Nat} (hp : ¬K p) (c : Int) (x y : ℚ) : Keep K w (w.abs p c x y) :=
  (keep_relist hp _).trans (keep_adjust hp _)

theorem keep_rel {K : Nat → Prop} {w : World τ} {p : Nat} (hp : ¬K p) (c : Int) (x y : ℚ) : Keep K w (w.rel p c x y) := by
  unfold World.rel
  cases w.pats[p]? with
  | none => exact .refl K w
  | some o => exact keep_abs hp _ _ _

theorem keep_fresh {K : Nat → Prop} {w : World τ} (b : Build τ) : Keep K w (w.fresh b) := by
  refine keep_push _ _ (fun r hr => .inr ?_)
  simp only [List.mem_map, List.mem_range] at hr
  obtain ⟨i, hi, rfl⟩ := hr
  simp only [List.length_append]
  omega

theorem keep_step {K : Nat → Prop} {w : World τ} (eqv : τ → τ → Bool) (filler : Nat → τ) (op : Op τ) (hl : op.listOnly)
    (h : ∀ p, op.target = some p → ¬K p) : Keep K w (w.step eqv filler op) := by
  cases op with
  | new => exact keep_fresh _
  | copy p =>
    show Keep K w (w.copy p)
    unfold World.copy
    cases e : w.pats[p]? with
    | none => exact .refl K w
    | some o =>
      have := keep_push (K := K) (w := w) [] o (fun r hr => .inl ⟨p, o, e, hr⟩)
      rw [List.append_nil] at this
      exact this
  | plus p q => exact hl.elim
  | addPattern p q dx dy sx sy r => exact hl.elim
  | derive p f =>
    show Keep K w (w.derive p f)
    unfold World.derive
    split
    · exact .refl K w
    · exact keep_fresh _
  | abs p c x y => exact keep_abs (h p rfl) _ _ _
  | rel p c x y => exact keep_rel (h p rfl) _ _ _
  | command p c x y => exact keep_relist (h p rfl) _
  | prepend p c x y => exact keep_relist (h p rfl) _
  | insert p i c x y => exact keep_relist (h p rfl) _
  | insertRel p i c x y =>
    have hp := h p rfl
    show Keep K w (w.insertRel p i c x y)
    unfold World.insertRel
    split
    · exact .refl K w
    · dsimp only
      split_ifs <;> first | exact keep_relist hp _ | exact keep_rel hp _ _ _ | exact .refl K w
  | setItem p i st => exact keep_relist (h p rfl) _
  | addThread p t => exact keep_adjust (h p rfl) _
  | fix p => exact keep_adjust (h p rfl) _
  | clear p => exact (keep_relist (h p rfl) _).trans (keep_adjust (h p rfl) _)
  | frameEject p => exact keep_relist (h p rfl) _
  | trims p j d c => exact keep_relist (h p rfl) _
  | translate p x y => exact hl.elim
  | transform p m => exact hl.elim
  | center p => exact hl.elim
  | stopAsDup p c => exact hl.elim
  | dupAsStop p => exact hl.elim

theorem run_keep {K : Nat → Prop} (eqv : τ → τ → Bool) (filler : Nat → τ) (ops : List (Op τ)) (w : World τ)
    (hl : ∀ op ∈ ops, op.listOnly) (h : ∀ op ∈ ops, ∀ p, op.target = some p → ¬K p) : Keep K w (w.run eqv filler ops) := by
  induction ops generalizing w with
  | nil => exact .refl K w
  | cons op ops ih =>
    exact (keep_step eqv filler op (hl op (by simp)) (h op (by simp))).trans
      (ih _ (fun o ho => hl o (by simp [ho])) (fun o ho => h o (by simp [ho])))

/-! ## What a call does to its own pattern -/

theorem valOf_old (l : List Stitch) : (old l).map (valOf l) = l := by
  unfold old
  rw [List.map_map]
  refine List.ext_getElem (by simp) (fun i h1 h2 => ?_)
  simp [valOf, h2]

/-- Every kept entry is a position of the old list. -/
def InRange (n : Nat) (es : List Entry) : Prop := ∀ i, (Sum.inl i : Entry) ∈ es → i < n

theorem inRange_old (l : List Stitch) : InRange l.length (old l) := by
  intro i hi; simpa [old] using hi

theorem alloc_view (cells : List Stitch) (refs : List Nat) (es : List Entry) (hv : ∀ r ∈ refs, r < cells.length)
    (h : InRange refs.length es) :
    (alloc cells refs es).2.map (load (alloc cells refs es).1) = es.map (valOf (refs.map (load cells))) := by
  induction es generalizing cells with
  | nil => rfl
  | cons e es ih =>
    rcases e with i | st
    · have hi := h i (by simp)
      have ih := ih cells hv (fun i hi => h i (by simp [hi]))
      obtain ⟨ext, he⟩ := alloc_cells cells refs es
      simp only [alloc, List.map_append, List.map_cons, ih]
      rw [List.getElem?_eq_getElem hi, Option.toList_some, List.map_singleton, he, load_append _ _ _ (hv _ (List.getElem_mem _))]
      simp [valOf, hi]
    · have hv' : ∀ r ∈ refs, r < (cells ++ [st]).length := fun r hr => by have := hv r hr; simp; omega
      have ih := ih (cells ++ [st]) hv' (fun i hi => h i (by simp [hi]))
      obtain ⟨ext, he⟩ := alloc_cells (cells ++ [st]) refs es
      have hc : refs.map (load (cells ++ [st])) = refs.map (load cells) :=
        List.map_congr_left (fun r hr => load_append _ _ _ (hv r hr))
      rw [hc] at ih
      simp only [alloc, List.map_cons, ih]
      rw [he, load_append _ _ _ (by simp)]
      simp [valOf, load]

theorem view_some {w : World τ} {p : Nat} {b : Build τ} (h : w.view p = some b) :
    ∃ o, w.pats[p]? = some o ∧ b = o.view w.cells := by
  unfold World.view at h
  cases e : w.pats[p]? with
  | none => rw [e] at h; cases h
  | some o => rw [e] at h; exact ⟨o, rfl, by injection h with h; exact h.symm⟩

theorem lt_of_getElem? {α : Type} {l : List α} {i : Nat} {a : α} (h : l[i]? = some a) : i < l.length :=
  (List.getElem?_eq_some_iff.1 h).1

theorem view_relist {w : World τ} {p : Nat} {b : Build τ} (hw : w.Valid) (h : w.view p = some b) (f : List Stitch → List Entry)
    (hf : InRange b.stitches.length (f b.stitches)) :
    (w.relist p f).view p = some { b with stitches := (f b.stitches).map (valOf b.stitches) } := by
  obtain ⟨o, ho, rfl⟩ := view_some h
  have hl := lt_of_getElem? ho
  unfold World.relist World.view
  rw [ho]
  simp only [List.getElem?_set_self hl, Option.map_some, Obj.view]
  rw [alloc_view _ _ _ (hw p o ho) (by simpa [Obj.view] using hf)]

theorem view_adjust {w : World τ} {p : Nat} {b : Build τ} (h : w.view p = some b) (f : Build τ → List τ × ℚ × ℚ) :
    (w.adjust p f).view p = some ⟨b.stitches, (f b).1, (f b).2.1, (f b).2.2⟩ := by
  obtain ⟨o, ho, rfl⟩ := view_some h
  have hl := lt_of_getElem? ho
  unfold World.adjust World.view
  rw [ho]
  simp only [List.getElem?_set_self hl, Option.map_some, Obj.view]

/-- The loop of `sweep` on a list of different stitches. -/
def sweepVal {σ : Type} (f : σ → Stitch → σ × Stitch) : σ → List Stitch → σ × List Stitch
  | s, [] => (s, [])
  | s, st :: l => ((sweepVal f (f s st).1 l).1, (f s st).2 :: (sweepVal f (f s st).1 l).2)

theorem sweep_view {σ : Type} (f : σ → Stitch → σ × Stitch) (s : σ) (cells : List Stitch) (rs : List Nat) (hn : rs.Nodup)
    (hv : ∀ r ∈ rs, r < cells.length) :
    (sweep f s cells rs).1 = (sweepVal f s (rs.map (load cells))).1 ∧
    rs.map (load (sweep f s cells rs).2) = (sweepVal f s (rs.map (load cells))).2 := by
  induction rs generalizing s cells with
  | nil => exact ⟨rfl, rfl⟩
  | cons r rs ih =>
    rw [List.nodup_cons] at hn
    have hc : rs.map (load (cells.set r (f s (load cells r)).2)) = rs.map (load cells) :=
      List.map_congr_left (fun a ha => load_set_ne _ _ _ _ (fun e => hn.1 (e ▸ ha)))
    obtain ⟨h1, h2⟩ := ih (f s (load cells r)).1 (cells.set r (f s (load cells r)).2) hn.2
      (fun a ha => by simpa using hv a (by simp [ha]))
    rw [hc] at h1 h2
    refine ⟨h1, ?_⟩
    simp only [sweep, List.map_cons, sweepVal, h2]
    rw [sweep_other _ _ _ _ _ hn.1, load_set_eq _ _ _ (hv r (by simp))]

/-- No stitch object occurs twice in pattern `p`. -/
def World.Single (w : World τ) (p : Nat) : Prop := ∀ o, w.pats[p]? = some o → o.refs.Nodup

theorem view_sweep {w : World τ} {p : Nat} {b : Build τ} (hw : w.Valid) (hs : w.Single p) (h : w.view p = some b) {σ : Type}
    (f : σ → Stitch → σ × Stitch) (init : List τ → σ) (threads : σ → List τ) :
    (w.sweep p 0 f (fun o => init o.threads) threads).view p =
      some { b with stitches := (sweepVal f (init b.threads) b.stitches).2, threads := threads (sweepVal f (init b.threads) b.stitches).1 } := by
  obtain ⟨o, ho, rfl⟩ := view_some h
  have hl := lt_of_getElem? ho
  obtain ⟨h1, h2⟩ := sweep_view f (init o.threads) w.cells o.refs (hs o ho) (hw p o ho)
  unfold World.sweep World.view
  rw [ho]
  simp only [List.getElem?_set_self hl, Option.map_some, Obj.view, List.drop_zero, h1, h2]

theorem view_each {w : World τ} {p : Nat} {b : Build τ} (hw : w.Valid) (hs : w.Single p) (h : w.view p = some b) (f : Stitch → Stitch) :
    (w.each p f).view p = some { b with stitches := b.stitches.map f } := by
  unfold World.each
  refine (view_sweep hw hs h (fun (s : List τ) st => (s, f st)) id id).trans ?_
  have : ∀ (s : List τ) l, sweepVal (fun (s : List τ) st => (s, f st)) s l = (s, l.map f) := by
    intro s l
    induction l with
    | nil => rfl
    | cons a l ih => simp [sweepVal, ih]
  rw [this]; rfl

theorem ejectLoop_val {α : Type} (val : α → Stitch) (new : Stitch → α) (hn : ∀ s, val (new s) = s) (acc : List α) (s : Ops.EjectState)
    (l : List α) : (ejectLoop val new acc s l).map val = Ops.ejectLoop (acc.map val) s (l.map val) := by
  induction l generalizing acc s with
  | nil => unfold ejectLoop; split <;> simp_all [Ops.ejectLoop, List.map_take]
  | cons a l ih =>
    unfold ejectLoop
    rw [List.map_cons, Ops.ejectLoop]
    split_ifs <;> simp_all [List.map_take]

theorem ejectLoop_mem {α : Type} (val : α → Stitch) (new : Stitch → α) (acc : List α) (s : Ops.EjectState) (l : List α) :
    ∀ e ∈ ejectLoop val new acc s l, e ∈ acc ∨ e ∈ l ∨ ∃ st, e = new st := by
  induction l generalizing acc s with
  | nil =>
    intro e he
    unfold ejectLoop at he
    split at he
    · rw [List.mem_append, List.mem_singleton] at he
      rcases he with h | h
      · exact .inl (List.mem_of_mem_take h)
      · exact .inr (.inr ⟨_, h⟩)
    · exact .inl he
  | cons a l ih =>
    have key : ∀ acc' s, (∀ e ∈ acc', e ∈ acc ∨ e = a ∨ ∃ st, e = new st) → ∀ e ∈ ejectLoop val new acc' s l,
        e ∈ acc ∨ e ∈ a :: l ∨ ∃ st, e = new st := by
      intro acc' s hacc e he
      rcases ih acc' s e he with h | h | h
      · rcases hacc e h with h | h | h
        · exact .inl h
        · exact .inr (.inl (by simp [h]))
        · exact .inr (.inr h)
      · exact .inr (.inl (by simp [h]))
      · exact .inr (.inr h)
    have snoc : ∀ e ∈ acc ++ [a], e ∈ acc ∨ e = a ∨ ∃ st, e = new st := by
      intro e he
      rw [List.mem_append, List.mem_singleton] at he
      rcases he with h | h
      · exact .inl h
      · exact .inr (.inl h)
    intro e he
    unfold ejectLoop at he
    split_ifs at he
    all_goals first
      | exact key _ _ snoc e he
      | skip
    refine key _ _ ?_ e he
    intro e he
    simp only [List.mem_append, List.mem_cons, List.not_mem_nil, or_false] at he
    rcases he with h | h | h
    · exact .inl (List.mem_of_mem_take h)
    · exact .inr (.inr ⟨_, h⟩)
    · exact .inr (.inl h)

theorem itStepOn_val {α : Type} (val : α → Stitch) (new : Stitch → α) (hn : ∀ s, val (new s) = s) (j : Option Int) (d : Option ℚ)
    (c : Bool) (p : List α × ITState) (a : α) :
    ((itStepOn val new j d c p a).1.map val, (itStepOn val new j d c p a).2) = itStep j d c (p.1.map val, p.2) (val a) := by
  unfold itStepOn itStep pyInsert
  dsimp only
  split_ifs <;> simp_all [List.map_take, List.map_drop]

theorem itStepOn_mem {α : Type} (val : α → Stitch) (new : Stitch → α) (j : Option Int) (d : Option ℚ) (c : Bool)
    (p : List α × ITState) (a : α) : ∀ e ∈ (itStepOn val new j d c p a).1, e ∈ p.1 ∨ e = a ∨ ∃ st, e = new st := by
  have snoc : ∀ e ∈ p.1 ++ [a], e ∈ p.1 ∨ e = a ∨ ∃ st, e = new st := by
    intro e he
    rw [List.mem_append, List.mem_singleton] at he
    rcases he with h | h
    · exact .inl h
    · exact .inr (.inl h)
  have ins : ∀ k st, ∀ e ∈ pyInsert (p.1 ++ [a]) k (new st), e ∈ p.1 ∨ e = a ∨ ∃ st, e = new st := by
    intro k st e he
    unfold pyInsert at he
    simp only [List.mem_append, List.mem_cons] at he
    rcases he with h | h | h
    · exact snoc e (List.mem_of_mem_take h)
    · exact .inr (.inr ⟨_, h⟩)
    · exact snoc e (List.mem_of_mem_drop h)
  intro e he
  unfold itStepOn at he
  dsimp only at he
  split_ifs at he <;> first
    | exact snoc e he
    | exact ins _ _ e he
    | exact snoc e (List.mem_of_mem_take he)
    | exact ins _ _ e (List.mem_of_mem_take he)

theorem trims_val {α : Type} (val : α → Stitch) (new : Stitch → α) (hn : ∀ s, val (new s) = s) (j : Option Int) (d : Option ℚ)
    (c : Bool) (l : List α) (p : List α × ITState) :
    ((l.foldl (itStepOn val new j d c) p).1.map val, (l.foldl (itStepOn val new j d c) p).2) =
      (l.map val).foldl (itStep j d c) (p.1.map val, p.2) ∧
    ∀ e ∈ (l.foldl (itStepOn val new j d c) p).1, e ∈ p.1 ∨ e ∈ l ∨ ∃ st, e = new st := by
  induction l generalizing p with
  | nil => exact ⟨rfl, fun e h => .inl h⟩
  | cons a l ih =>
    refine ⟨?_, fun e he => ?_⟩
    · rw [List.map_cons, List.foldl_cons, List.foldl_cons, (ih _).1, itStepOn_val val new hn]
    · rcases (ih _).2 e he with h | h | h
      · rcases itStepOn_mem val new j d c p a e h with h | h | h
        · exact .inl h
        · exact .inr (.inl (by simp [h]))
        · exact .inr (.inr h)
      · exact .inr (.inl (by simp [h]))
      · exact .inr (.inr h)

/-- What a call means for a pattern whose stitches are not shared: the value-level model (`Verif.Blocks`, `Verif.Ops`, `Verif.Trims`,
`Verif.Pattern`). -/
def Op.effect (eqv : τ → τ → Bool) (filler : Nat → τ) (b : Build τ) : Op τ → Build τ
  | .abs _ c x y => b.abs c x y
  | .rel _ c x y => b.rel c x y
  | .command _ c x y => Ops.command b c x y
  | .prepend _ c x y => Ops.prepend b c x y
  | .insert _ i c x y => Ops.insert b i c x y
  | .insertRel _ i c x y => Ops.insertRel b i c x y
  | .setItem _ i st => { b with stitches := b.stitches.set i st }
  | .addThread _ t => { b with threads := b.threads ++ [t] }
  | .fix _ => { b with threads := fixColorCount b.threads filler b.stitches }
  | .clear _ => {}
  | .frameEject _ => { b with stitches := Ops.frameEject b.stitches }
  | .trims _ j d c => { b with stitches := interpolateTrims j d c b.stitches }
  | .translate _ x y => { b with stitches := Emb.translate x y b.stitches }
  | .transform _ m => { b with stitches := b.stitches.map (fun st => ⟨(m.point st.x st.y).1, (m.point st.x st.y).2, st.cmd⟩) }
  | .center _ => { b with stitches := (moveCenterToOrigin b.stitches).toOption.getD b.stitches }
  | .stopAsDup _ c => { b with stitches := (Ops.stopAsDup c b.stitches b.threads).1, threads := (Ops.stopAsDup c b.stitches b.threads).2 }
  | .dupAsStop _ => { b with stitches := (Ops.dupAsStop eqv b.stitches b.threads).1, threads := (Ops.dupAsStop eqv b.stitches b.threads).2 }
  | _ => b

theorem inRange_append {n : Nat} {a b : List Entry} : InRange n (a ++ b) ↔ InRange n a ∧ InRange n b := by
  unfold InRange
  simp only [List.mem_append]
  exact ⟨fun h => ⟨fun i hi => h i (.inl hi), fun i hi => h i (.inr hi)⟩, fun h i hi => hi.elim (h.1 i) (h.2 i)⟩

theorem inRange_new {n : Nat} {st : Stitch} {b : List Entry} : InRange n (.inr st :: b) ↔ InRange n b := by
  unfold InRange; simp

theorem inRange_take {n k : Nat} {a : List Entry} (h : InRange n a) : InRange n (a.take k) :=
  fun i hi => h i (List.mem_of_mem_take hi)

theorem inRange_drop {n k : Nat} {a : List Entry} (h : InRange n a) : InRange n (a.drop k) :=
  fun i hi => h i (List.mem_of_mem_drop hi)

theorem stopBody_val (change : Int) (threads : List τ) (ti : Nat) (l : List Stitch) :
    ((sweepVal (stopBody change) (threads, ti, false) l).2, (sweepVal (stopBody change) (threads, ti, false) l).1.1) =
      Ops.stopLoop change threads ti l := by
  have done : ∀ (threads : List τ) ti l, sweepVal (stopBody change) (threads, ti, true) l = ((threads, ti, true), l) := by
    intro threads ti l
    induction l with
    | nil => rfl
    | cons a l ih => simp [sweepVal, stopBody, ih]
  induction l generalizing threads ti with
  | nil => rfl
  | cons a l ih =>
    simp only [sweepVal]
    have e : Ops.stopLoop change threads ti (a :: l) =
        if cmdOf a.cmd = STITCH ∨ cmdOf a.cmd = SEW_TO ∨ cmdOf a.cmd = NEEDLE_AT then
          (a :: (Ops.stopLoop change threads ti l).1, (Ops.stopLoop change threads ti l).2)
        else if cmdOf a.cmd = COLOR_CHANGE ∨ cmdOf a.cmd = COLOR_BREAK ∨ cmdOf a.cmd = NEEDLE_SET then
          (a :: (Ops.stopLoop change threads (ti + 1) l).1, (Ops.stopLoop change threads (ti + 1) l).2)
        else if cmdOf a.cmd = STOP then
          match threads[ti]? with
          | none => (a :: l, threads)
          | some t =>
            ({ a with cmd := change } :: (Ops.stopLoop change (threads.insertIdx ti t) (ti + 1) l).1,
              (Ops.stopLoop change (threads.insertIdx ti t) (ti + 1) l).2)
        else (a :: (Ops.stopLoop change threads ti l).1, (Ops.stopLoop change threads ti l).2) := rfl
    rw [e]
    by_cases c1 : cmdOf a.cmd = STITCH ∨ cmdOf a.cmd = SEW_TO ∨ cmdOf a.cmd = NEEDLE_AT
    · have hb : stopBody change (threads, ti, false) a = ((threads, ti, false), a) := by simp [stopBody, c1]
      rw [if_pos c1, hb, ← ih]
    · by_cases c2 : cmdOf a.cmd = COLOR_CHANGE ∨ cmdOf a.cmd = COLOR_BREAK ∨ cmdOf a.cmd = NEEDLE_SET
      · have hb : stopBody change (threads, ti, false) a = ((threads, ti + 1, false), a) := by simp [stopBody, c1, c2]
        rw [if_neg c1, if_pos c2, hb, ← ih]
      · by_cases c3 : cmdOf a.cmd = STOP
        · rw [if_neg c1, if_neg c2, if_pos c3]
          cases ht : threads[ti]? with
          | none =>
            have hb : stopBody change (threads, ti, false) a = ((threads, ti, true), a) := by
              simp only [stopBody, if_neg c1, if_neg c2, if_pos c3, ht]; rfl
            rw [hb, done]
          | some t =>
            have hb : stopBody change (threads, ti, false) a = ((threads.insertIdx ti t, ti + 1, false), { a with cmd := change }) := by
              simp only [stopBody, if_neg c1, if_neg c2, if_pos c3, ht]; rfl
            rw [hb]
            simp only [← ih]
        · have hb : stopBody change (threads, ti, false) a = ((threads, ti, false), a) := by
            simp only [stopBody, if_neg c1, if_neg c2, if_neg c3]; rfl
          rw [if_neg c1, if_neg c2, if_neg c3, hb, ← ih]

/-- The list without duplicate addresses: writing the cell at position `i`. -/
theorem map_load_set (cells : List Stitch) (rs : List Nat) (hn : rs.Nodup) (i : Nat) (hi : i < rs.length)
    (hv : ∀ r ∈ rs, r < cells.length) (f : Stitch → Stitch) :
    rs.map (load (cells.set rs[i] (f (load cells rs[i])))) = (rs.map (load cells)).modify i f := by
  refine List.ext_getElem (by simp) (fun k h1 h2 => ?_)
  simp only [List.getElem_map, List.getElem_modify]
  simp only [List.length_map] at h1
  by_cases e : i = k
  · subst e
    rw [if_pos rfl, load_set_eq _ _ _ (hv _ (List.getElem_mem _))]
  · rw [if_neg e, load_set_ne]
    intro e2
    exact e ((List.Nodup.getElem_inj_iff hn).1 e2)

theorem modify_left {α : Type} (a b : List α) (i : Nat) (f : α → α) (h : i < a.length) : (a ++ b).modify i f = a.modify i f ++ b := by
  refine List.ext_getElem (by simp) (fun k h1 h2 => ?_)
  simp only [List.getElem_modify, List.getElem_append, List.length_modify]
  split_ifs <;> first | rfl | omega

theorem dupSweep_val (eqv : τ → τ → Bool) (rs0 : List Nat) (hn : rs0.Nodup) (cells : List Stitch) (hv : ∀ r ∈ rs0, r < cells.length)
    (threads : List τ) (ti : Nat) (init : Bool) (last : Option Nat) (lastRef : Option Nat) (done rs : List Nat) (hrs : rs0 = done ++ rs)
    (hl : lastRef = last.bind (fun i => rs0[i]?)) (hlt : ∀ i, last = some i → i < done.length) :
    (rs0.map (load (dupSweep eqv cells threads ti init lastRef rs).1), (dupSweep eqv cells threads ti init lastRef rs).2) =
      Ops.dupLoop eqv (done.map (load cells)) threads ti init last (rs.map (load cells)) := by
  induction rs generalizing cells threads ti init last lastRef done with
  | nil => simp [dupSweep, Ops.dupLoop, hrs]
  | cons r rs ih =>
    have next : ∀ threads ti init, (rs0.map (load (dupSweep eqv cells threads ti init lastRef rs).1), (dupSweep eqv cells threads ti init lastRef rs).2) =
      Ops.dupLoop eqv (done.map (load cells) ++ [load cells r]) threads ti init last (rs.map (load cells)) := by
      intro threads ti init
      rw [ih cells hv threads ti init last lastRef (done ++ [r]) (by simp [hrs]) hl (fun i hi => by have := hlt i hi; simp; omega)]
      simp
    rw [List.map_cons]
    rw [dupSweep.eq_def, Ops.dupLoop.eq_def]
    dsimp only
    by_cases c1 : cmdOf (load cells r).cmd = STITCH ∨ cmdOf (load cells r).cmd = SEW_TO ∨ cmdOf (load cells r).cmd = NEEDLE_AT
    · rw [if_pos c1, if_pos c1]
      by_cases ci : init = true
      · rw [if_pos ci, if_pos ci]
        cases last with
        | none =>
          have : lastRef = none := hl
          subst this
          exact next _ _ _
        | some i =>
          have hi := hlt i rfl
          have hi0 : i < rs0.length := by rw [hrs]; simp; omega
          have : lastRef = some rs0[i] := by rw [hl]; simp [hi0]
          subst this
          dsimp only
          by_cases ct : ti = 0
          · rw [if_pos ct, if_pos ct]; exact next _ _ _
          · rw [if_neg ct, if_neg ct]
            have stop : (rs0.map (load cells), threads) = (done.map (load cells) ++ load cells r :: rs.map (load cells), threads) := by
              rw [hrs]; simp
            rcases e1 : threads[ti - 1]? with _ | a
            · exact stop
            · rcases e2 : threads[ti]? with _ | b
              · exact stop
              · dsimp only
                by_cases ce : eqv a b = true
                · rw [if_pos ce, if_pos ce]
                  have hm := map_load_set cells rs0 hn i hi0 hv (fun st => { st with cmd := STOP })
                  generalize hc : cells.set rs0[i] { load cells rs0[i] with cmd := STOP } = cells' at hm ⊢
                  have hlen : cells'.length = cells.length := by rw [← hc]; simp
                  rw [ih cells' (fun r hr => by rw [hlen]; exact hv r hr) (threads.eraseIdx ti) ti false (some i) (some rs0[i]) (done ++ [r])
                    (by simp [hrs]) (by simp [hi0]) (fun k hk => by injection hk with hk; subst hk; simp; omega)]
                  have hsplit : (done ++ [r]).map (load cells') ++ rs.map (load cells') =
                      ((done ++ [r]).map (load cells)).modify i (fun st => { st with cmd := STOP }) ++ rs.map (load cells) := by
                    rw [← List.map_append, List.append_assoc, List.singleton_append, ← hrs, hm, hrs]
                    rw [show done ++ r :: rs = (done ++ [r]) ++ rs by simp, List.map_append]
                    exact modify_left _ _ _ _ (by simp; omega)
                  obtain ⟨q1, q2⟩ := List.append_inj hsplit (by simp)
                  rw [q1, q2]
                  unfold Ops.setStop
                  simp
                · rw [if_neg ce, if_neg ce]; exact next _ _ _
      · rw [if_neg ci, if_neg ci]; exact next _ _ _
    · rw [if_neg c1, if_neg c1]
      by_cases c2 : cmdOf (load cells r).cmd = COLOR_CHANGE ∨ cmdOf (load cells r).cmd = COLOR_BREAK ∨ cmdOf (load cells r).cmd = NEEDLE_SET
      · rw [if_pos c2, if_pos c2]
        rw [ih cells hv threads ti true (some done.length) (some r) (done ++ [r]) (by simp [hrs]) (by simp [hrs])
          (fun i hi => by injection hi with hi; subst hi; simp)]
        simp
      · rw [if_neg c2, if_neg c2]; exact next _ _ _

/-- A call does to its own pattern what the value-level model says, if the pattern holds no stitch object twice. -/
theorem step_view (eqv : τ → τ → Bool) (filler : Nat → τ) {w : World τ} {p : Nat} {b : Build τ} (hw : w.Valid) (hs : w.Single p)
    (h : w.view p = some b) (op : Op τ) (ht : op.target = some p) (hop : ∀ q dx dy sx sy r, op ≠ .addPattern p q dx dy sx sy r) :
    (w.step eqv filler op).view p = some (op.effect eqv filler b) := by
  have hval : ∀ (l : List Stitch) (s : Stitch), valOf l (.inr s) = s := fun _ _ => rfl
  have habs : ∀ c x y, (w.abs p c x y).view p = some (b.abs c x y) := by
    intro c x y
    unfold World.abs
    rw [view_adjust (view_relist hw h _ (inRange_append.2 ⟨inRange_old _, by simp [InRange]⟩))]
    simp [valOf_old, hval, Build.abs]
  have hrel : ∀ c x y, (w.rel p c x y).view p = some (b.rel c x y) := by
    intro c x y
    obtain ⟨o, ho, rfl⟩ := view_some h
    unfold World.rel
    rw [ho]
    exact habs _ _ _
  cases op <;> simp only [Op.target, Option.some.injEq, reduceCtorEq] at ht <;> replace ht := ht.symm <;> subst ht
  case addPattern => exact absurd rfl (hop _ _ _ _ _ _)
  case abs => exact habs _ _ _
  case rel => exact hrel _ _ _
  case command =>
    refine (view_relist hw h _ (inRange_append.2 ⟨inRange_old _, by simp [InRange]⟩)).trans ?_
    simp [valOf_old, hval, Op.effect, Ops.command]
  case prepend =>
    refine (view_relist hw h _ (inRange_new.2 (inRange_old _))).trans ?_
    simp [valOf_old, hval, Op.effect, Ops.prepend]
  case insert =>
    refine (view_relist hw h _ (inRange_append.2 ⟨inRange_take (inRange_old _), inRange_new.2 (inRange_drop (inRange_old _))⟩)).trans ?_
    simp only [List.map_append, List.map_take, List.map_cons, List.map_drop, valOf_old, hval, Op.effect, Ops.insert]
  case insertRel i c x y =>
    obtain ⟨o, ho, rfl⟩ := view_some h
    show (w.insertRel p i c x y).view p = some (Ops.insertRel _ i c x y)
    have hlen : (o.view w.cells).stitches.length = o.refs.length := by simp [Obj.view]
    unfold World.insertRel Ops.insertRel
    rw [ho, hlen]
    dsimp only
    generalize (if i < 0 then i + (o.refs.length : Int) else i) = j
    by_cases c1 : j = 0
    · rw [if_pos c1, if_pos c1]
      refine (view_relist hw h _ (inRange_new.2 (inRange_old _))).trans ?_
      simp [valOf_old, hval]
    · rw [if_neg c1, if_neg c1]
      by_cases c2 : j = (o.refs.length : Int)
      · rw [if_pos c2, if_pos c2]; exact hrel _ _ _
      · rw [if_neg c2, if_neg c2]
        by_cases c3 : 0 < j ∧ j < (o.refs.length : Int)
        · rw [if_pos c3, if_pos c3]
          refine (view_relist hw h _ (inRange_append.2 ⟨inRange_take (inRange_old _), inRange_new.2 (inRange_drop (inRange_old _))⟩)).trans ?_
          simp only [List.map_append, List.map_take, List.map_cons, List.map_drop, valOf_old, hval]
        · rw [if_neg c3, if_neg c3]; exact h
  case setItem i st =>
    refine (view_relist hw h _ ?_).trans ?_
    · intro k hk
      rcases List.mem_or_eq_of_mem_set hk with h1 | h1
      · exact inRange_old _ k h1
      · cases h1
    · simp only [List.map_set, valOf_old, hval, Op.effect]
  case addThread => exact view_adjust h _
  case fix => exact view_adjust h _
  case clear =>
    refine (view_adjust (view_relist hw h _ (by simp [InRange])) _).trans ?_
    rfl
  case frameEject =>
    refine (view_relist hw h _ ?_).trans ?_
    · intro k hk
      rcases ejectLoop_mem _ _ _ _ _ _ hk with h1 | h1 | ⟨_, h1⟩
      · cases h1
      · exact inRange_old _ k h1
      · cases h1
    · rw [ejectLoop_val _ _ (hval _), valOf_old]; rfl
  case trims j d c =>
    have ht := trims_val (valOf b.stitches) .inr (hval _) j d c (old b.stitches) ([], ITState.init)
    refine (view_relist hw h _ ?_).trans ?_
    · intro k hk
      rcases ht.2 _ hk with h1 | h1 | ⟨_, h1⟩
      · cases h1
      · exact inRange_old _ k h1
      · cases h1
    · rw [valOf_old] at ht
      have e := congrArg Prod.fst ht.1
      dsimp only at e
      rw [e]; rfl
  case translate => exact view_each hw hs h _
  case transform => exact view_each hw hs h _
  case center =>
    show (w.center p).view p = _
    unfold World.center
    rw [h]
    dsimp only [Op.effect]
    unfold moveCenterToOrigin
    cases hb : bounds b.stitches with
    | none => exact h
    | some box => exact view_each hw hs h _
  case stopAsDup c =>
    refine (view_sweep hw hs h (stopBody c) (fun t => (t, 0, false)) (·.1)).trans ?_
    have e := stopBody_val c b.threads 0 b.stitches
    simp only [Op.effect, Ops.stopAsDup, ← e]
  case dupAsStop =>
    obtain ⟨o, ho, rfl⟩ := view_some h
    show (w.dupAsStop eqv p).view p = _
    have e := dupSweep_val eqv o.refs (hs o ho) w.cells (hw p o ho) o.threads 0 true none none [] o.refs rfl rfl (by simp)
    unfold World.dupAsStop World.view
    rw [ho]
    simp only [List.getElem?_set_self (lt_of_getElem? ho), Option.map_some, Obj.view, Op.effect, Ops.dupAsStop]
    rw [← List.map_nil (f := load w.cells), ← e]

/-! ## Adding patterns -/

/-- `p` and `q` are different objects that share no stitches, and `q` holds no stitch twice. -/
structure World.Pair (w : World τ) (p q : Nat) : Prop where
  valid : w.Valid
  ne : p ≠ q
  apart : ∀ o o2, w.pats[p]? = some o → w.pats[q]? = some o2 → ∀ r ∈ o.refs, r ∉ o2.refs
  single : w.Single q

theorem pair_set {w : World τ} {p q : Nat} (h : w.Pair p q) (ext : List Stitch) (o' : Obj τ)
    (hrefs : ∀ r ∈ o'.refs, (∃ o, w.pats[p]? = some o ∧ r ∈ o.refs) ∨ (w.cells.length ≤ r ∧ r < (w.cells ++ ext).length)) :
    (⟨w.cells ++ ext, w.pats.set p o'⟩ : World τ).Pair p q ∧ (⟨w.cells ++ ext, w.pats.set p o'⟩ : World τ).view q = w.view q := by
  have hq : (w.pats.set p o')[q]? = w.pats[q]? := List.getElem?_set_ne h.ne
  refine ⟨⟨?_, h.ne, ?_, ?_⟩, ?_⟩
  · intro k o hk r hr
    show r < (w.cells ++ ext).length
    have hk : (w.pats.set p o')[k]? = some o := hk
    by_cases e : p = k
    · subst e
      rw [List.getElem?_set] at hk
      simp only [if_true] at hk
      split at hk
      · injection hk with hk; subst hk
        rcases hrefs r hr with ⟨o, ho, hr⟩ | ⟨_, h2⟩
        · have := h.valid _ o ho r hr; simp only [List.length_append]; omega
        · exact h2
      · cases hk
    · rw [List.getElem?_set_ne e] at hk
      have := h.valid k o hk r hr; simp only [List.length_append]; omega
  · intro o o2 ho ho2 r hr hr2
    have ho : (w.pats.set p o')[p]? = some o := ho
    have ho2 : (w.pats.set p o')[q]? = some o2 := ho2
    rw [hq] at ho2
    rw [List.getElem?_set] at ho
    simp only [if_true] at ho
    split at ho
    · injection ho with ho; subst ho
      rcases hrefs r hr with ⟨o, ho, hr⟩ | ⟨h1, _⟩
      · exact h.apart o o2 ho ho2 r hr hr2
      · have := h.valid q o2 ho2 r hr2; omega
    · cases ho
  · intro o ho
    have ho : (w.pats.set p o')[q]? = some o := ho
    rw [hq] at ho
    exact h.single o ho
  · exact view_eq hq (fun o ho r hr => load_append _ _ _ (h.valid q o ho r hr))

theorem pair_relist {w : World τ} {p q : Nat} (h : w.Pair p q) (f : List Stitch → List Entry) :
    (w.relist p f).Pair p q ∧ (w.relist p f).view q = w.view q := by
  unfold World.relist
  cases e : w.pats[p]? with
  | none => exact ⟨h, rfl⟩
  | some o =>
    dsimp only
    obtain ⟨ext, h1⟩ := alloc_cells w.cells o.refs (f (o.refs.map (load w.cells)))
    have h2 := alloc_refs w.cells o.refs (f (o.refs.map (load w.cells)))
    rw [h1] at h2 ⊢
    refine pair_set h ext _ (fun r hr => ?_)
    rcases h2 r hr with h | h
    · exact .inl ⟨o, e, h⟩
    · exact .inr h

theorem pair_adjust {w : World τ} {p q : Nat} (h : w.Pair p q) (f : Build τ → List τ × ℚ × ℚ) :
    (w.adjust p f).Pair p q ∧ (w.adjust p f).view q = w.view q := by
  unfold World.adjust
  cases e : w.pats[p]? with
  | none => exact ⟨h, rfl⟩
  | some o =>
    have := pair_set h [] { o with threads := (f (o.view w.cells)).1, px := (f (o.view w.cells)).2.1, py := (f (o.view w.cells)).2.2 }
      (fun r hr => .inl ⟨o, e, hr⟩)
    rw [List.append_nil] at this
    exact this

theorem neutral_val (l : List Stitch) : (sweepVal neutralBody false l).2 = Ops.neutralise l := by
  have done : ∀ l, (sweepVal neutralBody true l).2 = l := by
    intro l
    induction l with
    | nil => rfl
    | cons a l ih => simp [sweepVal, neutralBody, ih]
  induction l with
  | nil => rfl
  | cons a l ih =>
    simp only [sweepVal, Ops.neutralise]
    by_cases c1 : cmdOf a.cmd = STITCH ∨ cmdOf a.cmd = SEW_TO ∨ cmdOf a.cmd = NEEDLE_AT
    · have hb : neutralBody false a = (true, a) := by simp [neutralBody, c1]
      rw [if_pos c1, hb, done]
    · by_cases c2 : cmdOf a.cmd = COLOR_CHANGE ∨ cmdOf a.cmd = COLOR_BREAK ∨ cmdOf a.cmd = NEEDLE_SET
      · have hb : neutralBody false a = (false, { a with cmd := NO_COMMAND }) := by simp [neutralBody, c1, c2]
        rw [if_neg c1, if_pos c2, hb, ih]
      · have hb : neutralBody false a = (false, a) := by simp [neutralBody, c1, c2]
        rw [if_neg c1, if_neg c2, hb, ih]

theorem view_join {w : World τ} {p q : Nat} (h : w.Pair p q) {bp bq : Build τ} (hp : w.view p = some bp) (hq : w.view q = some bq) :
    (w.join p q).view p = some { bp with stitches := bp.stitches ++ Ops.neutralise bq.stitches } ∧
    (w.join p q).view q = some { bq with stitches := Ops.neutralise bq.stitches } := by
  obtain ⟨o, ho, rfl⟩ := view_some hp
  obtain ⟨o2, ho2, rfl⟩ := view_some hq
  have hs := (sweep_view neutralBody false w.cells o2.refs (h.single o2 ho2) (h.valid q o2 ho2)).2
  rw [neutral_val] at hs
  have hkeep : o.refs.map (load (sweep neutralBody false w.cells o2.refs).2) = o.refs.map (load w.cells) :=
    List.map_congr_left (fun r hr => sweep_other _ _ _ _ _ (h.apart o o2 ho ho2 r hr))
  unfold World.join World.view
  rw [ho, ho2]
  simp only [List.getElem?_set_self (lt_of_getElem? ho), List.getElem?_set_ne h.ne, ho2, Option.map_some, Obj.view, List.map_append, hs,
    hkeep, and_self]

theorem view_rel {w : World τ} {p : Nat} {b : Build τ} (hw : w.Valid) (h : w.view p = some b) (c : Int) (x y : ℚ) :
    (w.rel p c x y).view p = some (b.rel c x y) := by
  obtain ⟨o, ho, rfl⟩ := view_some h
  unfold World.rel World.abs
  rw [ho]
  dsimp only
  rw [view_adjust (view_relist hw h _ (inRange_append.2 ⟨inRange_old _, by simp [InRange]⟩))]
  simp [valOf_old, valOf, Build.abs, Build.rel, Obj.view]

theorem view_dropEnd {w : World τ} {p : Nat} {b : Build τ} (hw : w.Valid) (h : w.view p = some b) :
    (w.dropEnd p).view p =
      some { b with stitches := if b.stitches.getLast?.any (fun st => st.cmd == END) then b.stitches.dropLast else b.stitches } := by
  unfold World.dropEnd
  rw [view_relist hw h]
  · split <;> simp [List.map_dropLast, valOf_old]
  · split
    · intro i hi; exact inRange_old _ i (List.dropLast_subset _ hi)
    · exact inRange_old _

/-- `add_pattern` on two patterns without common stitches does what the value-level model says, and also neutralises the stitches of
the added pattern itself. -/
theorem addPattern_view (eqv : τ → τ → Bool) (filler : Nat → τ) {w : World τ} {p q : Nat} (h : w.Pair p q) {bp bq : Build τ}
    (hp : w.view p = some bp) (hq : w.view q = some bq) (dx dy sx sy r : Option ℚ) (b : Build τ)
    (hb : Ops.addPattern eqv filler bp bq dx dy sx sy r = .ok b) :
    (w.addPattern eqv filler p q dx dy sx sy r).view p = some b ∧
    (w.addPattern eqv filler p q dx dy sx sy r).view q = some { bq with stitches := Ops.neutralise bq.stitches } := by
  obtain ⟨o, ho, hbp⟩ := view_some hp
  unfold World.addPattern
  rw [ho]
  dsimp only
  unfold Ops.addPattern at hb
  cases hl : bp.stitches.getLast? with
  | none => rw [hl] at hb; cases hb
  | some last =>
    rw [hl] at hb
    dsimp only at hb
    have hne : ¬o.refs = [] := by
      intro e
      rw [hbp] at hl
      simp [Obj.view, e] at hl
    rw [if_neg hne]
    have v1 := view_dropEnd h.valid hp
    obtain ⟨p1, q1⟩ := pair_relist h (fun l => if l.getLast?.any (fun st => st.cmd == END) then (old l).dropLast else old l)
    change (w.dropEnd p).Pair p q at p1
    change (w.dropEnd p).view q = _ at q1
    rw [hl] at v1
    generalize w.dropEnd p = w1 at v1 p1 q1 ⊢
    have v2 := view_relist p1.valid v1 (fun l => old l ++ (Ops.transforms dx dy sx sy r).map .inr)
      (inRange_append.2 ⟨inRange_old _, by simp [InRange]⟩)
    obtain ⟨p2, q2⟩ := pair_relist p1 (fun l => old l ++ (Ops.transforms dx dy sx sy r).map .inr)
    generalize w1.relist p (fun l => old l ++ (Ops.transforms dx dy sx sy r).map .inr) = w2 at v2 p2 q2 ⊢
    have v3 := view_adjust v2 (fun b => (fixColorCount b.threads filler b.stitches, b.px, b.py))
    obtain ⟨p3, q3⟩ := pair_adjust p2 (fun b => (fixColorCount b.threads filler b.stitches, b.px, b.py))
    unfold World.fix
    generalize w2.adjust p (fun b => (fixColorCount b.threads filler b.stitches, b.px, b.py)) = w3 at v3 p3 q3 ⊢
    have q3' : w3.view q = some bq := by rw [q3, q2, q1, hq]
    have hval : (Ops.transforms dx dy sx sy r).map (fun s => valOf (if last.cmd = END then bp.stitches.dropLast else bp.stitches) (.inr s)) =
        Ops.transforms dx dy sx sy r := by simp [valOf]
    have v3' : w3.view p = some
        { bp with
          stitches := (if last.cmd = END then bp.stitches.dropLast else bp.stitches) ++ Ops.transforms dx dy sx sy r
          threads := fixColorCount bp.threads filler
            ((if last.cmd = END then bp.stitches.dropLast else bp.stitches) ++ Ops.transforms dx dy sx sy r) } := by
      rw [v3]
      by_cases e : last.cmd = END <;>
        simp [e, valOf_old, List.map_append, Function.comp_def, valOf]
    clear v3 v2 v1
    have hb2 : ∀ b0 : Build τ, b0 = { bp with
          stitches := (if last.cmd = END then bp.stitches.dropLast else bp.stitches) ++ Ops.transforms dx dy sx sy r
          threads := fixColorCount bp.threads filler
            ((if last.cmd = END then bp.stitches.dropLast else bp.stitches) ++ Ops.transforms dx dy sx sy r) } →
        (match bq.threads with
          | [] => (.ok { b0 with stitches := b0.stitches ++ Ops.neutralise bq.stitches } : Except PyErr (Build τ))
          | t :: ts =>
            match b0.threads.getLast? with
            | none => .error .indexError
            | some u =>
              if eqv t u then .ok { b0 with threads := b0.threads ++ ts, stitches := b0.stitches ++ Ops.neutralise bq.stitches }
              else
                let b1 : Build τ := { b0 with threads := b0.threads ++ t :: ts }.rel COLOR_CHANGE 0 0
                .ok { b1 with stitches := b1.stitches ++ Ops.neutralise bq.stitches }) = .ok b := by
      intro b0 e
      subst e
      rw [← hb]
      by_cases e : last.cmd = END
      · simp only [if_pos e]
        cases bq.threads <;> rfl
      · simp only [if_neg e]
        cases bq.threads <;> rfl
    have hb3 := hb2 _ rfl
    clear hb hb2
    generalize ({ bp with
          stitches := (if last.cmd = END then bp.stitches.dropLast else bp.stitches) ++ Ops.transforms dx dy sx sy r
          threads := fixColorCount bp.threads filler
            ((if last.cmd = END then bp.stitches.dropLast else bp.stitches) ++ Ops.transforms dx dy sx sy r) } : Build τ) = b0 at v3' hb3
    obtain ⟨o3, ho3, e3⟩ := view_some v3'
    obtain ⟨o4, ho4, e4⟩ := view_some q3'
    unfold World.append
    rw [ho3, ho4]
    dsimp only
    have t4 : o4.threads = bq.threads := by rw [e4]; rfl
    have t3 : o3.threads = b0.threads := by rw [e3]; rfl
    rw [t4, t3]
    cases ht : bq.threads with
    | nil =>
      rw [ht] at hb3
      injection hb3 with hb3
      subst hb3
      have := view_join p3 v3' q3'
      rw [ht] at this
      exact this
    | cons t ts =>
      rw [ht] at hb3
      dsimp only at hb3 ⊢
      cases hu : b0.threads.getLast? with
      | none => rw [hu] at hb3; cases hb3
      | some u =>
        rw [hu] at hb3
        dsimp only at hb3 ⊢
        by_cases c : eqv t u = true
        · rw [if_pos c] at hb3 ⊢
          injection hb3 with hb3
          subst hb3
          obtain ⟨p4, q4⟩ := pair_adjust p3 (fun b => (b.threads ++ ts, b.px, b.py))
          have := view_join p4 (view_adjust v3' _) (q4.trans q3')
          rw [ht] at this
          exact this
        · rw [if_neg c] at hb3 ⊢
          injection hb3 with hb3
          subst hb3
          obtain ⟨p4, q4⟩ := pair_adjust p3 (fun b => (b.threads ++ t :: ts, b.px, b.py))
          have v4 := view_adjust v3' (fun b => (b.threads ++ t :: ts, b.px, b.py))
          generalize w3.adjust p (fun b => (b.threads ++ t :: ts, b.px, b.py)) = w4 at p4 q4 v4 ⊢
          have v5 := view_rel p4.valid v4 COLOR_CHANGE 0 0
          have p5 : (w4.rel p COLOR_CHANGE 0 0).Pair p q ∧ (w4.rel p COLOR_CHANGE 0 0).view q = w4.view q := by
            unfold World.rel
            cases w4.pats[p]? with
            | none => exact ⟨p4, rfl⟩
            | some o5 =>
              dsimp only
              unfold World.abs
              obtain ⟨p5, q5⟩ := pair_relist p4 (fun l => old l ++ [.inr ⟨o5.px + 0, o5.py + 0, COLOR_CHANGE⟩])
              obtain ⟨p6, q6⟩ := pair_adjust p5 (fun b => (b.threads, o5.px + 0, o5.py + 0))
              exact ⟨p6, q6.trans q5⟩
          have := view_join p5.1 v5 (p5.2.trans (q4.trans q3'))
          rw [ht] at this
          exact this

/-! ## C53 -/

theorem copy_eq {w : World τ} {p : Nat} {o : Obj τ} (h : w.pats[p]? = some o) : w.copy p = ⟨w.cells, w.pats ++ [o]⟩ := by
  unfold World.copy; rw [h]

theorem copy_pats {w : World τ} {p : Nat} {o : Obj τ} (h : w.pats[p]? = some o) (k : Nat) (hk : k < w.pats.length) :
    (w.copy p).pats[k]? = w.pats[k]? := by
  rw [copy_eq h]; exact List.getElem?_append_left hk

theorem copy_pats_new {w : World τ} {p : Nat} {o : Obj τ} (h : w.pats[p]? = some o) : (w.copy p).pats[w.pats.length]? = some o := by
  rw [copy_eq h]; simp

theorem copy_valid {w : World τ} (hw : w.Valid) (p : Nat) : (w.copy p).Valid := by
  unfold World.copy
  cases e : w.pats[p]? with
  | none => exact hw
  | some o =>
    intro k ok hk r hr
    have hk : (w.pats ++ [o])[k]? = some ok := hk
    rw [List.getElem?_append] at hk
    split at hk
    · exact hw k ok hk r hr
    · rw [List.getElem?_singleton] at hk
      split at hk
      · injection hk with hk; subst hk; exact hw p o e r hr
      · cases hk

/-- **C53.** A copy is a new pattern that looks like the original. -/
theorem C53_copy {w : World τ} {p : Nat} {b : Build τ} (h : w.view p = some b) :
    (w.copy p).view w.pats.length = some b ∧ (w.copy p).view p = some b := by
  obtain ⟨o, ho, rfl⟩ := view_some h
  unfold World.view
  rw [copy_pats_new ho, copy_pats ho p (lt_of_getElem? ho), ho, copy_eq ho]
  exact ⟨rfl, rfl⟩

/-- **C53 (partial).** Copying pattern `p` and then running any program of calls that add, insert, replace or remove stitches or threads,
merge jumps, infer trims or frame ejects, normalise, copy (again) ... and that do not work on `p` itself, leaves `p` as it was.
Missing: the methods that write into stitches (see `C53_translate_fails`). -/
theorem C53_list_calls_partial (eqv : τ → τ → Bool) (filler : Nat → τ) {w : World τ} (hw : w.Valid) (p : Nat) (hp : p < w.pats.length)
    (ops : List (Op τ)) (hl : ∀ op ∈ ops, op.listOnly) (h : ∀ op ∈ ops, op.target ≠ some p) :
    ((w.copy p).run eqv filler ops).view p = w.view p := by
  obtain ⟨o, ho⟩ : ∃ o, w.pats[p]? = some o := ⟨_, List.getElem?_eq_getElem hp⟩
  have := (run_keep (K := (· = p)) eqv filler ops (w.copy p) hl
    (fun op hop k hk e => h op hop (by rw [hk, e]))
    ⟨copy_valid hw p, fun q hq => by subst hq; rw [copy_eq ho]; simp; omega⟩).2 p rfl
  rw [this]
  exact view_eq (copy_pats ho p hp) (fun o _ r _ => by rw [copy_eq ho])

/-- **C53 (partial).** Patterns that share no stitch objects with the others are not changed by any program that does not touch them.
Which patterns share: copies and sums with their sources, and patterns added to one another. -/
theorem C53_apart_partial (eqv : τ → τ → Bool) (filler : Nat → τ) (K : Nat → Prop) {w : World τ} (hw : w.Valid)
    (hK : ∀ q, K q → q < w.pats.length) (ha : w.Apart K) (ops : List (Op τ)) (h : ∀ op ∈ ops, ∀ p ∈ op.touches, ¬K p) (q : Nat) (hq : K q) :
    (w.run eqv filler ops).view q = w.view q :=
  (run_safe eqv filler ops w h ⟨hw, hK, ha⟩).2 q hq

/-- **C53 fails.** Translating a copy translates the original as well; the same for every method that changes each stitch in place. -/
theorem C53_each_fails {w : World τ} (hw : w.Valid) {p : Nat} (hs : w.Single p) {b : Build τ} (h : w.view p = some b) (f : Stitch → Stitch) :
    ((w.copy p).each w.pats.length f).view p = some { b with stitches := b.stitches.map f } ∧
    ((w.copy p).each w.pats.length f).view w.pats.length = some { b with stitches := b.stitches.map f } := by
  obtain ⟨o, ho, hb⟩ := view_some h
  have hl := lt_of_getElem? ho
  have hs' : (w.copy p).Single w.pats.length := by
    intro o' ho'
    rw [copy_pats_new ho] at ho'
    injection ho' with e; subst e; exact hs o ho
  have v := view_each (copy_valid hw p) hs' (C53_copy h).1 f
  refine ⟨?_, v⟩
  obtain ⟨o2, ho2, e2⟩ := view_some v
  have hcopy : (w.copy p).pats[w.pats.length]? = some o := copy_pats_new ho
  have hp2 : ((w.copy p).each w.pats.length f).pats[p]? = some o := by
    unfold World.each World.sweep
    rw [hcopy]
    show ((w.copy p).pats.set w.pats.length _)[p]? = _
    rw [List.getElem?_set_ne (by omega), copy_pats ho p hl, ho]
  have hn : ((w.copy p).each w.pats.length f).pats[w.pats.length]? = some o := by
    unfold World.each World.sweep
    rw [hcopy]
    show ((w.copy p).pats.set w.pats.length _)[w.pats.length]? = _
    rw [List.getElem?_set_self (by rw [copy_eq ho]; simp)]
    have : ∀ (s : List τ) cells rs, (Heap.sweep (fun (s : List τ) st => (s, f st)) s cells rs).1 = s := by
      intro s cells rs
      induction rs generalizing cells with
      | nil => rfl
      | cons r rs ih => rw [Heap.sweep]; exact ih _
    rw [this]; rfl
  rw [← v]
  unfold World.view
  rw [hp2, hn]

/-- **C53 fails** for `translate`: after `c = p.copy(); c.translate(dx, dy)` the original has moved. -/
theorem C53_translate_fails {w : World τ} (hw : w.Valid) {p : Nat} (hs : w.Single p) {b : Build τ} (h : w.view p = some b) (dx dy : ℚ) :
    ((w.copy p).translate w.pats.length dx dy).view p = some { b with stitches := Emb.translate dx dy b.stitches } :=
  (C53_each_fails hw hs h _).1

/-- **C53, sums.** For patterns `p` and `q` without common stitches, `p + q` is what `add_pattern` makes (C56) and leaves `p` as it was; but
`q`'s own thread changes before its first stitch are overwritten. So `q` is unchanged exactly if it has none. -/
theorem C53_plus_actual (eqv : τ → τ → Bool) (filler : Nat → τ) {w : World τ} {p q : Nat} (h : w.Pair p q) {bp bq b : Build τ}
    (hp : w.view p = some bp) (hq : w.view q = some bq) (hb : Ops.addPattern eqv filler bp bq none none none none none = .ok b) :
    (w.plus eqv filler p q).view w.pats.length = some b ∧
    (w.plus eqv filler p q).view p = some bp ∧
    (w.plus eqv filler p q).view q = some { bq with stitches := Ops.neutralise bq.stitches } := by
  obtain ⟨o, ho, ebp⟩ := view_some hp
  obtain ⟨o2, ho2, ebq⟩ := view_some hq
  have hl := lt_of_getElem? ho
  have hl2 := lt_of_getElem? ho2
  have hpair : (w.copy p).Pair w.pats.length q := by
    refine ⟨copy_valid h.valid p, by omega, ?_, ?_⟩
    · intro a a2 ha ha2
      rw [copy_pats_new ho] at ha
      rw [copy_pats ho q hl2] at ha2
      injection ha with ha; subst ha
      exact h.apart o a2 ho ha2
    · intro a ha
      rw [copy_pats ho q hl2] at ha
      exact h.single a ha
  have hq' : (w.copy p).view q = some bq := by
    rw [← hq]
    exact view_eq (copy_pats ho q hl2) (fun o _ r _ => by rw [copy_eq ho])
  obtain ⟨h1, h2⟩ := addPattern_view eqv filler hpair (C53_copy hp).1 hq' none none none none none b hb
  unfold World.plus
  rw [if_pos hl]
  refine ⟨h1, ?_, h2⟩
  -- the original: only cells of `q` are written, and only the list of the copy is changed
  have hkeep : ∀ (w' : World τ) (a q : Nat), w'.Pair a q → a ≠ p → (∃ o, w'.pats[p]? = some o ∧ ∀ o2, w'.pats[q]? = some o2 → ∀ r ∈ o.refs, r ∉ o2.refs) →
      (w'.addPattern eqv filler a q none none none none none).view p = w'.view p := by
    intro w' a q hpr hap ⟨o, ho, hd⟩
    -- restrict the memory to what matters: `p` is protected from `a` and `q`
    have keepR : ∀ (w1 : World τ) f, w1.Pair a q → w1.pats[p]? = some o → (∀ o2, w1.pats[q]? = some o2 → ∀ r ∈ o.refs, r ∉ o2.refs) →
        (w1.relist a f).pats[p]? = some o ∧ (w1.relist a f).pats[q]? = w1.pats[q]? ∧ (w1.relist a f).view p = w1.view p := by
      intro w1 f hpr ho hd
      have k := keep_relist (K := fun k => k = p) (w := w1) (p := a) hap f
        ⟨hpr.valid, fun k hk => by subst hk; exact lt_of_getElem? ho⟩
      refine ⟨?_, ?_, k.2 p rfl⟩
      · unfold World.relist
        cases w1.pats[a]? with
        | none => exact ho
        | some oa => exact (List.getElem?_set_ne hap).trans ho
      · unfold World.relist
        cases w1.pats[a]? with
        | none => rfl
        | some oa => exact List.getElem?_set_ne hpr.ne
    have keepA : ∀ (w1 : World τ) f, w1.Pair a q → w1.pats[p]? = some o →
        (w1.adjust a f).pats[p]? = some o ∧ (w1.adjust a f).pats[q]? = w1.pats[q]? ∧ (w1.adjust a f).view p = w1.view p := by
      intro w1 f hpr ho
      have k := keep_adjust (K := fun k => k = p) (w := w1) (p := a) hap f
        ⟨hpr.valid, fun k hk => by subst hk; exact lt_of_getElem? ho⟩
      refine ⟨?_, ?_, k.2 p rfl⟩
      · unfold World.adjust
        cases w1.pats[a]? with
        | none => exact ho
        | some oa => exact (List.getElem?_set_ne hap).trans ho
      · unfold World.adjust
        cases w1.pats[a]? with
        | none => rfl
        | some oa => exact List.getElem?_set_ne hpr.ne
    have keepJ : ∀ (w1 : World τ), w1.Pair a q → w1.pats[p]? = some o → (∀ o2, w1.pats[q]? = some o2 → ∀ r ∈ o.refs, r ∉ o2.refs) →
        (w1.join a q).view p = w1.view p := by
      intro w1 hpr ho hd
      unfold World.join
      cases e1 : w1.pats[a]? with
      | none => rfl
      | some oa =>
        cases e2 : w1.pats[q]? with
        | none => rfl
        | some oq =>
          refine view_eq (List.getElem?_set_ne hap) (fun o' ho' r hr => ?_)
          rw [ho] at ho'
          injection ho' with e; subst e
          exact sweep_other _ _ _ _ _ (hd oq e2 r hr)
    unfold World.addPattern
    split
    · rfl
    · split
      · rfl
      · -- END removed, transforms, fix
        obtain ⟨p1, _⟩ := pair_relist hpr (fun l => if l.getLast?.any (fun st => st.cmd == END) then (old l).dropLast else old l)
        obtain ⟨a1, b1, c1⟩ := keepR w' (fun l => if l.getLast?.any (fun st => st.cmd == END) then (old l).dropLast else old l) hpr ho hd
        change (w'.dropEnd a).Pair a q at p1
        change (w'.dropEnd a).pats[p]? = _ at a1
        change (w'.dropEnd a).pats[q]? = _ at b1
        change (w'.dropEnd a).view p = _ at c1
        generalize w'.dropEnd a = w1 at p1 a1 b1 c1 ⊢
        have d1 : ∀ o2, w1.pats[q]? = some o2 → ∀ r ∈ o.refs, r ∉ o2.refs := by rw [b1]; exact hd
        obtain ⟨p2, _⟩ := pair_relist p1 (fun l => old l ++ (Ops.transforms none none none none none).map .inr)
        obtain ⟨a2, b2, c2⟩ := keepR w1 (fun l => old l ++ (Ops.transforms none none none none none).map .inr) p1 a1 d1
        generalize w1.relist a (fun l => old l ++ (Ops.transforms none none none none none).map .inr) = w2 at p2 a2 b2 c2 ⊢
        unfold World.fix
        obtain ⟨p3, _⟩ := pair_adjust p2 (fun b => (fixColorCount b.threads filler b.stitches, b.px, b.py))
        obtain ⟨a3, b3, c3⟩ := keepA w2 (fun b => (fixColorCount b.threads filler b.stitches, b.px, b.py)) p2 a2
        generalize w2.adjust a (fun b => (fixColorCount b.threads filler b.stitches, b.px, b.py)) = w3 at p3 a3 b3 c3 ⊢
        have d3 : ∀ o2, w3.pats[q]? = some o2 → ∀ r ∈ o.refs, r ∉ o2.refs := by rw [b3, b2]; exact d1
        have base : w3.view p = w'.view p := by rw [c3, c2, c1]
        rw [← base]
        unfold World.append
        split
        · split
          · exact keepJ w3 p3 a3 d3
          · split
            · rfl
            · split
              · rename_i ts _ _ _ _ _
                obtain ⟨p4, _⟩ := pair_adjust p3 (fun b => (b.threads ++ ts, b.px, b.py))
                obtain ⟨a4, b4, c4⟩ := keepA w3 (fun b => (b.threads ++ ts, b.px, b.py)) p3 a3
                rw [keepJ _ p4 a4 (by rw [b4]; exact d3), c4]
              · rename_i t ts _ _ _ _ _
                obtain ⟨p4, _⟩ := pair_adjust p3 (fun b => (b.threads ++ t :: ts, b.px, b.py))
                obtain ⟨a4, b4, c4⟩ := keepA w3 (fun b => (b.threads ++ t :: ts, b.px, b.py)) p3 a3
                generalize w3.adjust a (fun b => (b.threads ++ t :: ts, b.px, b.py)) = w4 at p4 a4 b4 c4 ⊢
                have d4 : ∀ o2, w4.pats[q]? = some o2 → ∀ r ∈ o.refs, r ∉ o2.refs := by rw [b4]; exact d3
                rw [← c4]
                unfold World.rel
                cases w4.pats[a]? with
                | none => exact keepJ _ p4 a4 d4
                | some o5 =>
                  dsimp only
                  unfold World.abs
                  obtain ⟨p5, _⟩ := pair_relist p4 (fun l => old l ++ [.inr ⟨o5.px + 0, o5.py + 0, COLOR_CHANGE⟩])
                  obtain ⟨a5, b5, c5⟩ := keepR w4 (fun l => old l ++ [.inr ⟨o5.px + 0, o5.py + 0, COLOR_CHANGE⟩]) p4 a4 d4
                  generalize w4.relist a (fun l => old l ++ [.inr ⟨o5.px + 0, o5.py + 0, COLOR_CHANGE⟩]) = w5 at p5 a5 b5 c5 ⊢
                  obtain ⟨p6, _⟩ := pair_adjust p5 (fun b => (b.threads, o5.px + 0, o5.py + 0))
                  obtain ⟨a6, b6, c6⟩ := keepA w5 (fun b => (b.threads, o5.px + 0, o5.py + 0)) p5 a5
                  rw [keepJ _ p6 a6 (by rw [b6, b5]; exact d4), c6, c5]
        · rfl
  rw [hkeep _ _ _ hpair (by omega) ⟨o, by rw [copy_pats ho p hl, ho], fun o3 h3 => by rw [copy_pats ho q hl2] at h3; exact h.apart o o3 ho h3⟩]
  exact (C53_copy hp).2

/-- A memory with the patterns given, none of which shares stitches (used in examples only). -/
def demoWorld (l : List (List Stitch × List Nat)) : World Nat :=
  l.foldl (fun w b => w.fresh ⟨b.1, b.2, 0, 0⟩) {}

example : (demoWorld [([⟨0, 0, 0⟩, ⟨5, 5, 0⟩], [1]), ([⟨7, 7, 5⟩, ⟨9, 9, 0⟩], [2])]).pats.map (·.refs) = [[0, 1], [2, 3]] := by
  decide +kernel

/-- The stitches of every pattern (used in examples only). -/
def World.seen {τ : Type} (w : World τ) : List (List Stitch) := w.pats.map (fun o => o.refs.map (load w.cells))

/-- **C53 fails**, concretely: (1) translating a copy; (2) the second operand of a sum; (3) `p += p` holds every stitch twice, so translating
it moves every stitch twice. -/
theorem C53_fails :
    ((demoWorld [([⟨0, 0, 0⟩, ⟨5, 5, 0⟩], [1])]).run (· == ·) id [.copy 0, .translate 1 10 0]).seen =
      [[⟨10, 0, 0⟩, ⟨15, 5, 0⟩], [⟨10, 0, 0⟩, ⟨15, 5, 0⟩]] ∧
    ((demoWorld [([⟨0, 0, 0⟩], [1]), ([⟨7, 7, 5⟩, ⟨9, 9, 0⟩], [2])]).run (· == ·) id [.plus 0 1]).seen =
      [[⟨0, 0, 0⟩], [⟨7, 7, -1⟩, ⟨9, 9, 0⟩], [⟨0, 0, 0⟩, ⟨0, 0, 5⟩, ⟨7, 7, -1⟩, ⟨9, 9, 0⟩]] ∧
    ((demoWorld [([⟨0, 0, 0⟩, ⟨5, 5, 0⟩], [1])]).run (· == ·) id [.addPattern 0 0 none none none none none, .translate 0 10 0]).seen =
      [[⟨20, 0, 0⟩, ⟨25, 5, 0⟩, ⟨20, 0, 0⟩, ⟨25, 5, 0⟩]] := by decide +kernel

/-- A program of list calls on a copy: the original keeps its stitches. -/
example : ((demoWorld [([⟨0, 0, 0⟩, ⟨5, 5, 0⟩], [1])]).run (· == ·) id
    [.copy 0, .rel 1 0 3 3, .insert 1 0 1 8 8, .setItem 1 1 ⟨4, 4, 2⟩, .addThread 1 7]).seen =
    [[⟨0, 0, 0⟩, ⟨5, 5, 0⟩], [⟨8, 8, 1⟩, ⟨4, 4, 2⟩, ⟨5, 5, 0⟩, ⟨3, 3, 0⟩]] := by decide +kernel

/-! ## C54 -/

theorem fresh_apart {w : World τ} (hw : w.Valid) (b : Build τ) : (w.fresh b).Inv (· < w.pats.length) := by
  refine ⟨?_, fun q hq => by simp [World.fresh]; omega, ?_⟩
  · have := (keep_fresh (K := fun _ => False) (w := w) b ⟨hw, fun q h => h.elim⟩).1.1
    exact this
  · intro p q o o2 kp kq hp hq r hr hr2
    have hp : (w.pats ++ [_])[p]? = some o := hp
    have hq : (w.pats ++ [_])[q]? = some o2 := hq
    rw [List.getElem?_append_left kq] at hq
    rw [List.getElem?_append, if_neg kp, List.getElem?_singleton] at hp
    split at hp
    · injection hp with hp
      subst hp
      simp only [List.mem_map, List.mem_range] at hr
      obtain ⟨i, _, rfl⟩ := hr
      have := hw q o2 hq _ hr2
      omega
    · cases hp

/-- **C54.** Normalising a pattern (or merging its jumps, or stabilising it: any `f`) changes no pattern, and neither does anything done
later with the result and with patterns made from it. -/
theorem C54_derived (eqv : τ → τ → Bool) (filler : Nat → τ) {w : World τ} (hw : w.Valid) (p : Nat) (f : Build τ → Option (Build τ))
    (ops : List (Op τ)) (h : ∀ op ∈ ops, ∀ k ∈ op.touches, w.pats.length ≤ k) (q : Nat) (hq : q < w.pats.length) :
    ((w.derive p f).run eqv filler ops).view q = w.view q := by
  have hops : ∀ op ∈ ops, ∀ k ∈ op.touches, ¬(k < w.pats.length) := fun op ho k hk => by have := h op ho k hk; omega
  unfold World.derive
  split
  · -- no new pattern: the program has nothing to work on
    refine (run_safe (K := (· < w.pats.length)) eqv filler ops w hops ⟨hw, fun _ h => h, ?_⟩).2 q hq
    intro a b o o2 ka kb ha _
    exact absurd (lt_of_getElem? ha) ka
  · rename_i b _
    have hi := fresh_apart hw b
    rw [(run_safe (K := (· < w.pats.length)) eqv filler ops (w.fresh b) hops hi).2 q hq]
    exact view_eq (List.getElem?_append_left hq) (fun o ho r hr => load_append _ _ _ (hw q o ho r hr))

/-- **C54.** `get_normalized_pattern(settings)`, whatever the settings and the maths library, followed by any program on the result,
leaves the source (and every other pattern) as it was. -/
theorem C54_normalize (eqv : Thread → Thread → Bool) (filler : Nat → Thread) {w : World Thread} (hw : w.Valid) (p : Nat) (o : Settings)
    (lm : Libm) (ops : List (Op Thread)) (h : ∀ op ∈ ops, ∀ k ∈ op.touches, w.pats.length ≤ k) (q : Nat) (hq : q < w.pats.length) :
    ((w.derive p (normalized o lm filler)).run eqv filler ops).view q = w.view q :=
  C54_derived eqv filler hw p _ ops h q hq

/-- What the normalised pattern holds: the stitches `encode` gives. -/
theorem C54_result {w : World Thread} {p : Nat} {b : Build Thread} (h : w.view p = some b) (o : Settings) (lm : Libm) (filler : Nat → Thread)
    (out : List Stitch) (ts : List (Option Thread)) (he : encode o lm b.threads b.stitches = .ok (out, ts)) :
    ∃ b', (w.derive p (normalized o lm filler)).view w.pats.length = some b' ∧ b'.stitches = out ∧ b'.threads.length = ts.length := by
  refine ⟨⟨out, ts.mapIdx (fun i t => t.getD (filler i)), 0, 0⟩, ?_, rfl, by simp⟩
  unfold World.derive normalized
  rw [h]
  simp only [Option.bind_some, he]
  unfold World.view World.fresh
  simp only [List.getElem?_concat_length, Option.map_some, Obj.view, Option.some.injEq, Build.mk.injEq, and_true, List.map_map]
  refine List.ext_getElem (by simp) (fun i h1 h2 => ?_)
  simp [load, h2]

/-- What the writers do to the pattern they are given before they write: `fix_color_count` (`JefWriter.py` 31, `Vp3Writer.py` 63),
`fix_color_count` and `interpolate_stop_as_duplicate_color` (`PecWriter.py` 29-30, `PesWriter.py` 30-31), `translate` (`PngWriter.py` 506);
the other writers do nothing to it. -/
def writerCalls (p : Nat) (dx dy : ℚ) : List (List (Op τ)) :=
  [[], [.fix p], [.fix p, .stopAsDup p COLOR_CHANGE], [.translate p dx dy]]

/-- **C54.** `write_embroidery` with encoding (the default of all writers that change their pattern) changes no existing pattern. -/
theorem C54_write_partial (eqv : Thread → Thread → Bool) (filler : Nat → Thread) {w : World Thread} (hw : w.Valid) (p : Nat) (o : Settings)
    (lm : Libm) (dx dy : ℚ) (ops : List (Op Thread)) (ho : ops ∈ writerCalls w.pats.length dx dy) (q : Nat) (hq : q < w.pats.length) :
    ((w.derive p (normalized o lm filler)).run eqv filler ops).view q = w.view q := by
  refine C54_normalize eqv filler hw p o lm ops (fun op hop k hk => ?_) q hq
  simp only [writerCalls, List.mem_cons, List.not_mem_nil, or_false] at ho
  rcases ho with rfl | rfl | rfl | rfl <;> simp only [List.mem_cons, List.not_mem_nil, or_false] at hop
  · subst hop; simp [Op.touches, Op.target] at hk; omega
  · rcases hop with rfl | rfl <;> simp [Op.touches, Op.target] at hk <;> omega
  · subst hop; simp [Op.touches, Op.target] at hk; omega

/-- **C54 fails** with `encode=False`: the writer then works on the user's pattern. A PES write turns its STOP into a colour change and
doubles a thread; a PNG write moves it. -/
theorem C54_unencoded_fails :
    let w := demoWorld [([⟨0, 0, 0⟩, ⟨5, 5, 3⟩, ⟨5, 5, 0⟩], [1])]
    (w.run (· == ·) id [.fix 0, .stopAsDup 0 COLOR_CHANGE]).seen = [[⟨0, 0, 0⟩, ⟨5, 5, 5⟩, ⟨5, 5, 0⟩]] ∧
    (w.run (· == ·) id [.fix 0, .stopAsDup 0 COLOR_CHANGE]).pats.map (·.threads) = [[1, 1]] ∧
    (w.run (· == ·) id [.translate 0 1 1]).seen = [[⟨1, 1, 0⟩, ⟨6, 6, 3⟩, ⟨6, 6, 0⟩]] := by decide +kernel

end Heap
end Emb
