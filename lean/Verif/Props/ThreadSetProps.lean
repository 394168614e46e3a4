import Mathlib.Data.List.Nodup
import Verif.ThreadSet
import Verif.Props.ThreadProps
import Verif.EncoderLemmas

/-!
# C93: equality of threads and patterns, and what a thread can be made from
-/

namespace Emb

/-! ## Equality and hash -/

/-- The 24 bits of the colour and the six texts. -/
def Thread.key (t : Thread) : Int × List (Option String) :=
  (t.color % 2 ^ 24, [t.description, t.catalog, t.details, t.brand, t.chart, t.weight])

/-- **C93**: threads are equal exactly if the low 24 bits of their colours and all their texts are. So `==` is reflexive, symmetric and
transitive. -/
theorem C93_equal (a b : Thread) : a.same b = true ↔ a.key = b.key := by
  unfold Thread.same Thread.key
  norm_num

/-- **C93**: equal threads have equal hashes, and the hash is the 24-bit colour. -/
theorem C93_hash (a b : Thread) (h : a.same b = true) : a.hash = b.hash ∧ a.hash = a.rgb ∧ 0 ≤ a.hash ∧ a.hash < 2 ^ 24 := by
  have := (C93_equal a b).1 h
  unfold Thread.key at this
  have h1 := (Prod.mk.inj this).1
  unfold Thread.hash Thread.rgb
  norm_num at h1 ⊢
  exact ⟨h1, by omega, by omega⟩

/-- **C93**: against a number only the 24-bit colours are compared; the only number in range equal to a thread is its hash. -/
theorem C93_int (t : Thread) (n : Int) : (t.eqInt n = true ↔ t.rgb = n % 2 ^ 24) ∧
    (0 ≤ n → n < 2 ^ 24 → (t.eqInt n = true ↔ t.hash = n)) := by
  unfold Thread.eqInt Thread.rgb Thread.hash
  simp only [decide_eq_true_eq]
  norm_num
  intro h1 h2
  rw [Int.emod_eq_of_lt h1 (by omega)]

/-- `==` across types is not transitive: two different threads equal the same number. And a number beyond 24 bits can equal a thread without
having its hash. -/
theorem C93_int_fails : ∃ (a b : Thread) (n : Int), a.eqInt n = true ∧ b.eqInt n = true ∧ a.same b = false ∧ a.hash ≠ n :=
  ⟨{ color := 1, description := some "x" }, { color := 1 }, 0x1000001, by decide⟩

/-- **C93**: against a text the colours are compared. -/
theorem C93_str (rnd : Int) (t : Thread) (s : Str) (c : Int) (h : parseStringColor rnd s = .ok (some c)) :
    t.eqStr rnd s = .ok (t.eqInt c) := by
  unfold Thread.eqStr Thread.eqInt
  rw [h]
  rfl

/-! ## `get_unique_threadlist` -/

theorem any_member (l : List Thread) (t : Thread) : (l.any (fun u => decide (u.hash = t.hash ∧ u.same t = true)) = true) ↔ ∃ u ∈ l, u.key = t.key := by
  rw [List.any_eq_true]
  simp only [decide_eq_true_eq]
  constructor
  · rintro ⟨u, h1, -, h2⟩
    exact ⟨u, h1, (C93_equal u t).1 h2⟩
  · rintro ⟨u, h1, h2⟩
    exact ⟨u, h1, (C93_hash u t ((C93_equal u t).2 h2)).1, (C93_equal u t).2 h2⟩

theorem unique_inv : ∀ (threads l : List Thread), (l.map Thread.key).Nodup →
    ((threads.foldl addMember l).map Thread.key).Nodup ∧
    (∀ u ∈ threads.foldl addMember l, u ∈ l ∨ u ∈ threads) ∧
    (∀ t, t ∈ l ∨ t ∈ threads → ∃ u ∈ threads.foldl addMember l, u.key = t.key) := by
  intro threads
  induction threads with
  | nil => intro l h; exact ⟨h, fun u hu => .inl hu, fun t ht => ⟨t, by simpa using ht, rfl⟩⟩
  | cons t threads ih =>
    intro l h
    rw [List.foldl_cons]
    unfold addMember
    by_cases hm : ∃ u ∈ l, u.key = t.key
    · rw [if_pos ((any_member l t).2 hm)]
      obtain ⟨h1, h2, h3⟩ := ih l h
      refine ⟨h1, fun u hu => (h2 u hu).imp id (by simp +contextual), ?_⟩
      intro v hv
      rcases hv with hv | hv
      · exact h3 v (.inl hv)
      · rcases List.mem_cons.1 hv with rfl | hv
        · obtain ⟨u, hu, e⟩ := hm
          obtain ⟨w, hw, e2⟩ := h3 u (.inl hu)
          exact ⟨w, hw, e2.trans e⟩
        · exact h3 v (.inr hv)
    · rw [if_neg (fun c => hm ((any_member l t).1 c))]
      obtain ⟨h1, h2, h3⟩ := ih (l ++ [t]) (by
        rw [List.map_append, List.nodup_append]
        refine ⟨h, by simp, ?_⟩
        intro a ha b hb
        simp only [List.map_cons, List.map_nil, List.mem_cons, List.not_mem_nil, or_false] at hb
        subst hb
        obtain ⟨u, hu, rfl⟩ := List.mem_map.1 ha
        exact fun e => hm ⟨u, hu, e⟩)
      refine ⟨h1, ?_, ?_⟩
      · intro u hu
        rcases h2 u hu with h | h
        · rcases List.mem_append.1 h with h | h
          · exact .inl h
          · right; simp only [List.mem_cons, List.not_mem_nil, or_false] at h; simp [h]
        · right; simp [h]
      · intro v hv
        apply h3
        rcases hv with hv | hv
        · left; simp [hv]
        · rcases List.mem_cons.1 hv with rfl | hv
          · left; simp
          · right; exact hv

/-- **C93**: the unique thread list has one thread of each kind: its members come from the list, no two are equal, and each thread of the
list equals one of them. -/
theorem C93_unique (threads : List Thread) :
    (∀ u ∈ uniqueThreads threads, u ∈ threads) ∧ (uniqueThreads threads).Pairwise (fun a b => a.same b = false) ∧
      ∀ t ∈ threads, ∃! u, u ∈ uniqueThreads threads ∧ u.same t = true := by
  obtain ⟨h1, h2, h3⟩ := unique_inv threads [] (by simp)
  change ((uniqueThreads threads).map Thread.key).Nodup at h1
  refine ⟨fun u hu => (h2 u hu).resolve_left (by simp), ?_, ?_⟩
  · rw [List.Nodup, List.pairwise_map] at h1
    refine h1.imp ?_
    intro a b hab
    rw [Bool.eq_false_iff]
    exact fun c => hab ((C93_equal a b).1 c)
  · intro t ht
    obtain ⟨u, hu, e⟩ := h3 t (.inr ht)
    refine ⟨u, ⟨hu, (C93_equal u t).2 e⟩, ?_⟩
    rintro v ⟨hv, e2⟩
    have := (C93_equal v t).1 e2
    exact List.inj_on_of_nodup_map h1 hv hu (this.trans e.symm)

/-- Its members in any order are what `C40_unique` takes as the iteration order of the set. -/
theorem C93_set_order (threads order : List Thread) (h : order.Perm (uniqueThreads threads)) : IsSetOrder order threads := by
  obtain ⟨h1, -, h3⟩ := C93_unique threads
  refine ⟨fun t ht => h1 t (h.mem_iff.1 ht), ?_⟩
  intro t ht
  obtain ⟨u, ⟨hu, e⟩, -⟩ := h3 t ht
  refine ⟨u, h.mem_iff.2 hu, ?_⟩
  rw [C93_equal] at e ⊢
  exact e.symm

/-! ## `set` -/

/-- The first value given. -/
def firstGiven {α : Type} (l : List (Option α)) (default : α) : α := (l.findSome? id).getD default

theorem take_eq {α : Type} (k : Option α) (f : α) : take k f = k.getD f := by cases k <;> rfl

/-- **C93**: a thread set from a dict: `desc` before `description` before `name`, `manufacturer` before `brand`, `catalog` before `id`,
and for the colour `hex` before `color` before `rgb`; what is not given stays. -/
theorem C93_dict (rnd : Int) (t u : Thread) (d : ThreadDict) (h : setDict rnd t d = .ok (some u)) :
    u.description = firstGiven [d.desc, d.description, d.name] t.description ∧
    u.brand = firstGiven [d.manufacturer, d.brand] t.brand ∧
    u.catalog = firstGiven [d.catalog, d.id] t.catalog ∧
    (u.details, u.chart, u.weight) = (t.details, t.chart, t.weight) ∧
    (∀ s, d.hex = some s → colorHex s = .ok (some u.color)) ∧
    (d.hex = none → ∀ v, firstGiven [d.color.map some, d.rgb.map some] none = some v → colorOf rnd (some t.color) v = .ok (some u.color)) ∧
    (d.hex = none → d.color = none → d.rgb = none → u.color = t.color) := by
  unfold setDict at h
  simp only at h
  obtain ⟨c1, h1, h⟩ := bind_ok.1 h
  obtain ⟨c2, h2, h⟩ := bind_ok.1 h
  injection h with h
  rw [Option.map_eq_some_iff] at h
  obtain ⟨c, rfl, rfl⟩ := h
  simp only [take_eq]
  refine ⟨?_, ?_, ?_, trivial, ?_, ?_, ?_⟩
  · cases d.desc <;> cases d.description <;> cases d.name <;> rfl
  · cases d.manufacturer <;> cases d.brand <;> rfl
  · cases d.catalog <;> cases d.id <;> rfl
  · intro s hs
    rw [hs] at h2
    exact h2
  · intro hs v hv
    rw [hs] at h2
    injection h2 with h2; subst h2
    cases hc : d.color with
    | some c0 =>
      rw [hc] at h1 hv
      simp only [firstGiven, Option.map_some, List.findSome?_cons, id, Option.getD_some] at hv
      injection hv with hv; subst hv
      exact h1
    | none =>
      rw [hc] at h1 hv
      cases hr : d.rgb with
      | some c0 =>
        rw [hr] at h1 hv
        simp only [firstGiven, Option.map_some, Option.map_none, List.findSome?_cons, id, Option.getD_some] at hv
        injection hv with hv; subst hv
        exact h1
      | none => rw [hr] at hv; simp [firstGiven] at hv
  · intro hs hc hr
    rw [hs] at h2
    rw [hc, hr] at h1
    injection h2 with h2; subst h2
    injection h1 with h1; injection h1 with h1; exact h1.symm

/-- **C93**: `set` fails or leaves no colour only because of the colour given: without `hex`, `color` and `rgb` it always succeeds. -/
theorem C93_dict_total (rnd : Int) (t : Thread) (d : ThreadDict) (h : d.hex = none) (h1 : d.color = none) (h2 : d.rgb = none) :
    ∃ u, setDict rnd t d = .ok (some u) := by
  unfold setDict
  simp only [h, h1, h2]
  exact ⟨_, rfl⟩

/-- **C93**: the colour values: a number is the colour, of a sequence the first three are red, green and blue, a shorter one is an
`IndexError`, a text is parsed, and anything else leaves the colour as it was. -/
theorem C93_values (rnd : Int) (old : Option Int) : (∀ n, colorOf rnd old (.int n) = .ok (some n)) ∧
    (∀ r g b rest, ∃ c, colorOf rnd old (.seq (r :: g :: b :: rest)) = .ok (some c) ∧
      c / 65536 = r % 256 ∧ c / 256 % 256 = g % 256 ∧ c % 256 = b % 256) ∧
    (∀ l : List Int, l.length < 3 → colorOf rnd old (.seq l) = .error .indexError) ∧
    (∀ s, colorOf rnd old (.text s) = parseStringColor rnd s) ∧ colorOf rnd old .other = .ok old := by
  refine ⟨fun n => rfl, fun r g b rest => ⟨_, rfl, ?_, ?_, ?_⟩, ?_, fun s => rfl, rfl⟩
  · unfold colorRgb; omega
  · unfold colorRgb; omega
  · unfold colorRgb; omega
  · intro l hl
    match l, hl with
    | [], _ => rfl
    | [_], _ => rfl
    | [_, _], _ => rfl

/-- **C93**: a thread set from another thread equals it; from a number it has that colour and keeps its texts. -/
theorem C93_set (t u : Thread) (n : Int) : setThread t u = u ∧ (setThread t u).same u = true ∧
    setInt t n = { t with color := n } ∧ (setInt t n).eqInt n = true := by
  refine ⟨rfl, ?_, rfl, ?_⟩
  · rw [C93_equal]; rfl
  · simp [setInt, Thread.eqInt]

theorem parse_other (rnd : Int) (s : Str) (h1 : s ≠ "random".toList) (h2 : s.head? ≠ some '#') :
    parseStringColor rnd s = match colorNames.find? (fun q => decide (q.1.toList = s.map Char.toLower)) with
      | some (_, r, g, b) => .ok (some (colorRgb r g b))
      | none => .ok (some 0) := by
  unfold parseStringColor
  rw [if_neg h1]
  split
  · simp at h2
  · rfl

theorem names_nodup : (colorNames.map (·.1)).Nodup := by decide +kernel

/-- **C93**: a name of the table, in any mixture of capitals and small letters, gives its colour. -/
theorem C93_name (rnd : Int) (t : Thread) (p : String × Int × Int × Int) (hp : p ∈ colorNames) (s : Str) (hs : s.map Char.toLower = p.1.toList) :
    setStr rnd t s = .ok (some { t with color := colorRgb p.2.1 p.2.2.1 p.2.2.2 }) := by
  have hsharp : ∀ p ∈ colorNames, p.1.toList.head? ≠ some '#' ∧ p.1 ≠ "random" := by decide +kernel
  have hfind : colorNames.find? (fun q => decide (q.1.toList = s.map Char.toLower)) = some p := by
    have huniq : ∀ q ∈ colorNames, q.1.toList = s.map Char.toLower → q = p := by
      intro q hq e
      exact List.inj_on_of_nodup_map names_nodup hq hp (String.toList_injective (e.trans hs))
    cases hf : colorNames.find? (fun q => decide (q.1.toList = s.map Char.toLower)) with
    | none =>
      rw [List.find?_eq_none] at hf
      exact absurd hs.symm (by simpa using hf p hp)
    | some q =>
      rw [huniq q (List.mem_of_find?_eq_some hf) (by simpa using List.find?_some hf)]
  have h1 : s ≠ "random".toList := by
    rintro rfl
    have : ("random".toList).map Char.toLower = "random".toList := by decide
    rw [this] at hs
    exact (hsharp p hp).2 (String.toList_injective hs.symm)
  have h2 : s.head? ≠ some '#' := by
    cases s with
    | nil => simp
    | cons c s =>
      intro hc
      apply (hsharp p hp).1
      injection hc with hc
      rw [← hs, hc]; rfl
  unfold setStr
  rw [parse_other rnd s h1 h2, hfind]
  rfl

/-- **C93**: a text that is no name of the table and no `#` notation gives black. -/
theorem C93_no_name (rnd : Int) (t : Thread) (s : Str) (h1 : s ≠ "random".toList) (h2 : s.head? ≠ some '#')
    (h3 : ∀ p ∈ colorNames, p.1.toList ≠ s.map Char.toLower) : setStr rnd t s = .ok (some { t with color := 0 }) := by
  have hf : colorNames.find? (fun q => decide (q.1.toList = s.map Char.toLower)) = none := by
    rw [List.find?_eq_none]
    intro q hq
    simpa using h3 q hq
  unfold setStr
  rw [parse_other rnd s h1 h2, hf]
  rfl

/-- **C93**: the opaque colour keeps the 24-bit colour below an alpha of 255. -/
theorem C93_opaque (t : Thread) (h : 0 ≤ t.color) (h2 : t.color < 2 ^ 24) : t.opaqueColor = 255 * 2 ^ 24 + t.rgb := by
  unfold Thread.opaqueColor Thread.rgb
  obtain ⟨n, hn⟩ := Int.eq_ofNat_of_zero_le h
  rw [hn] at h2 ⊢
  have h3 : n < 2 ^ 24 := by norm_num at h2 ⊢; omega
  have := Nat.shiftLeft_add_eq_or_of_lt h3 255
  show ((Nat.lor 0xFF000000 n : Nat) : Int) = _
  have e : Nat.lor 0xFF000000 n = 255 <<< 24 + n := by rw [this]; rfl
  rw [e, show (255 : Nat) <<< 24 = 255 * 2 ^ 24 by decide]
  norm_num at h3 ⊢
  omega

/-! ## Patterns -/

theorem sameThreads_iff : ∀ a b : List Thread, sameThreads a b = true ↔ a.map Thread.key = b.map Thread.key := by
  intro a
  induction a with
  | nil => intro b; cases b <;> simp [sameThreads]
  | cons t a ih =>
    intro b
    cases b with
    | nil => simp [sameThreads]
    | cons u b => simp [sameThreads, C93_equal, ih]

theorem lookup_mem {d : List (String × String)} (hd : (d.map (·.1)).Nodup) (k v : String) : d.lookup k = some v ↔ (k, v) ∈ d := by
  induction d with
  | nil => simp
  | cons p d ih =>
    rw [List.map_cons, List.nodup_cons] at hd
    obtain ⟨a, b⟩ := p
    by_cases h : k = a
    · subst h
      simp only [List.lookup_cons_self, List.mem_cons, Prod.mk.injEq, true_and]
      constructor
      · intro e; injection e with e; exact .inl e.symm
      · rintro (rfl | e)
        · rfl
        · exact absurd (List.mem_map_of_mem (f := (·.1)) e) hd.1
    · rw [List.lookup_cons, show (k == a) = false by simpa using h]
      simp [ih hd.2, h]

theorem sameDict_iff {d e : List (String × String)} (hd : (d.map (·.1)).Nodup) (he : (e.map (·.1)).Nodup) :
    sameDict d e = true ↔ ∀ k, d.lookup k = e.lookup k := by
  unfold sameDict
  rw [Bool.and_eq_true, List.all_eq_true, decide_eq_true_eq]
  simp only [decide_eq_true_eq]
  have hdn : d.Nodup := List.Nodup.of_map _ hd
  have hen : e.Nodup := List.Nodup.of_map _ he
  constructor
  · rintro ⟨h1, h2⟩
    have hsub : d ⊆ e := fun p hp => (lookup_mem he p.1 p.2).1 (h2 p hp)
    have hperm : d.Perm e := (List.subperm_of_subset hdn hsub).perm_of_length_le h1.ge
    intro k
    apply Option.ext
    intro v
    rw [lookup_mem hd, lookup_mem he, hperm.mem_iff]
  · intro h
    have hmem : ∀ p, p ∈ d ↔ p ∈ e := by
      rintro ⟨k, v⟩
      rw [← lookup_mem hd, ← lookup_mem he, h k]
    refine ⟨((List.perm_ext_iff_of_nodup hdn hen).2 hmem).length_eq, ?_⟩
    intro p hp
    exact (lookup_mem he p.1 p.2).2 ((hmem p).1 hp)

/-- **C93**: patterns are equal exactly if they have the same commands, equal threads in the same order, and the same value (or none) for
every key of their extras, whatever the order of the keys. -/
theorem C93_pattern (p q : Pattern) (hp : (p.extras.map (·.1)).Nodup) (hq : (q.extras.map (·.1)).Nodup) :
    p.same q = true ↔ p.stitches = q.stitches ∧ p.threads.map Thread.key = q.threads.map Thread.key ∧
      ∀ k, p.extras.lookup k = q.extras.lookup k := by
  rw [← sameThreads_iff, ← sameDict_iff hp hq]
  unfold Pattern.same
  by_cases h1 : p.stitches = q.stitches <;> by_cases h2 : sameThreads p.threads q.threads = true <;>
    by_cases h3 : sameDict p.extras q.extras = true <;> simp [h1, h2, h3]

/-- **C93**: a copy equals the pattern. -/
theorem C93_copy (p : Pattern) (hp : (p.extras.map (·.1)).Nodup) : p.copy.same p = true :=
  (C93_pattern p.copy p hp hp).2 ⟨rfl, rfl, fun _ => rfl⟩

/-! ## Examples -/

example : ({ color := 0xFF0000, brand := some "M" } : Thread).same { color := -0x1000000 + 0xFF0000, brand := some "M" } = true := by decide
example : setDict 0 { color := 5 } { name := some (some "a"), description := some (some "b"), color := some (.seq [1, 2, 3]), id := some (some "7") } =
    .ok (some { color := 0x010203, description := some "b", catalog := some "7" }) := by decide
example : setDict 0 { color := 5 } { color := some (.text "#12".toList) } = .ok none := by decide
example : setDict 0 { color := 5 } { color := some (.text "red".toList), hex := some "#00f".toList } = .ok (some { color := 0xFF }) := by decide +kernel
example : setStr 0 { color := 5 } "Red".toList = .ok (some { color := 0xFF0000 }) := by decide +kernel
example : uniqueThreads [{ color := 1 }, { color := 2 }, { color := 0x1000001 }] = [{ color := 1 }, { color := 2 }] := by decide
example : (⟨[], [], [("a", "1"), ("b", "2")]⟩ : Pattern).same ⟨[], [], [("b", "2"), ("a", "1")]⟩ = true := by decide +kernel

end Emb
