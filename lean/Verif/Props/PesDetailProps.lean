import Verif.Props.PesVersionProps

/-!
# Details of PES and PEC files: the end of a version 6 file, thumbnails, thread tables (C78, C79, C90)
-/

namespace Emb

open Blocks PecGraphics

namespace Pec

/-- **C78**: the threads of the PEC palette are of the brand and chart Brother, with a description and with their index as catalogue
number; no two of them are the same. -/
theorem C78_palette : palette.length = 65 ∧ palette[0]? = some none ∧ palette.Nodup ∧
    ∀ i < 64, ∃ t, palette[i + 1]? = some (some t) ∧ t.brand = some "Brother" ∧ t.chart = some "Brother" ∧
      t.catalog = some (toString (i + 1)) ∧ t.description.isSome = true ∧ 0 ≤ t.color ∧ t.color < 0x1000000 := by
  have h : ∀ i < 64, (match palette[i + 1]? with
    | some (some t) => decide (t.brand = some "Brother" ∧ t.chart = some "Brother" ∧ t.catalog = some (toString (i + 1)) ∧
      t.description.isSome = true ∧ 0 ≤ t.color ∧ t.color < 0x1000000)
    | _ => false) = true := by decide +kernel
  refine ⟨palette_length, by decide +kernel, by decide +kernel, fun i hi => ?_⟩
  have := h i hi
  split at this
  · rename_i t e
    exact ⟨t, e, of_decide_eq_true this⟩
  · exact absurd this (by decide)

theorem color_mem {τ : Type} (threads : List τ) (filler : Nat → τ) (l : List Stitch) :
    ∀ cur n, ∀ k ∈ colorLoop threads filler cur n l, ∀ a ∈ k.1, a ∈ cur ∨ a ∈ l := by
  induction l with
  | nil =>
    intro cur n k hk a ha
    unfold colorLoop at hk
    split_ifs at hk
    · simp at hk; subst hk; exact .inl ha
    · simp at hk
  | cons st l ih =>
    intro cur n k hk a ha
    unfold colorLoop at hk
    split_ifs at hk
    · rcases List.mem_cons.1 hk with rfl | hk
      · exact .inl ha
      · have := ih _ _ k hk a ha; simp at this; exact .inr (by simp [this])
    · have := ih _ _ k hk a ha; simp at this; exact .inr (by simp [this])
    · rcases List.mem_cons.1 hk with rfl | hk
      · simp at ha; rcases ha with ha | ha
        · exact .inl ha
        · exact .inr (by simp [ha])
      · have := ih _ _ k hk a ha; simp at this; exact .inr (by simp [this])
    · rcases List.mem_cons.1 hk with rfl | hk
      · exact .inl ha
      · have := ih _ _ k hk a ha; simp at this; exact .inr (by simpa using this)
    · have := ih _ _ k hk a ha
      simp at this
      rcases this with (h | h) | h
      · exact .inl h
      · exact .inr (by simp [h])
      · exact .inr (by simp [h])

theorem blocks_pixels (b : Box) (bs : List (List Stitch × Unit))
    (hp : ∀ k ∈ bs, ∀ a ∈ k.1, b.minX ≤ a.x ∧ a.x ≤ b.maxX ∧ b.minY ≤ a.y ∧ a.y ≤ b.maxY) (g : List Nat) (hg : g.length = 6 * 38) :
    ∀ x y : Nat, x < 48 →
      (pixel (bs.foldl (fun g blk => drawScaled b.minX b.minY b.maxX b.maxY 6 4 (points blk.1) g) g) 6 x y = true ↔
        pixel g 6 x y = true ∨
        ∃ k ∈ bs, ∃ a ∈ k.1, scaledPixel b.minX b.minY b.maxX b.maxY 228 6 4 a.x a.y = ((x : Int), (y : Int))) := by
  induction bs generalizing g with
  | nil => intro x y _; simp
  | cons k bs ih =>
    intro x y hx
    obtain ⟨h1, h2⟩ := C63_drawn b.minX b.minY b.maxX b.maxY 4 6 38 (by norm_num) (by norm_num) (by norm_num) (by norm_num) (points k.1) (by
      intro p hp'
      obtain ⟨a, ha, rfl⟩ := List.mem_map.1 hp'
      exact hp k (by simp) a ha) g hg
    rw [List.foldl_cons, ih (fun k hk => hp k (by simp [hk])) _ h1 x y hx, h2 x y (by omega)]
    constructor
    · rintro ((h | ⟨p, hp', e⟩) | ⟨k', hk, a, ha, e⟩)
      · exact .inl h
      · obtain ⟨a, ha, rfl⟩ := List.mem_map.1 hp'
        exact .inr ⟨k, by simp, a, ha, e⟩
      · exact .inr ⟨k', by simp [hk], a, ha, e⟩
    · rintro (h | ⟨k', hk, a, ha, e⟩)
      · exact .inl (.inl h)
      · rcases List.mem_cons.1 hk with rfl | hk
        · exact .inl (.inr ⟨(a.x, a.y), List.mem_map.2 ⟨a, ha, rfl⟩, e⟩)
        · exact .inr ⟨k', hk, a, ha, e⟩

/-- **C78**: the thumbnails. There is one more than there are colour blocks, each of 6 by 38 bytes. The first has, inside the frame, exactly the
pixels of the stitches of all blocks, with a margin of 4; number `k + 1` has exactly those of the stitches (STITCH, 0, without flags) of
colour block `k`, with a margin of 5. -/
theorem C78_thumbnails (l : List Stitch) (b : Box) (hb : bounds l = some b) :
    (thumbnails b l).length = (colorBlocks ([] : List Unit) (fun _ => ()) l).length + 1 ∧
    (∃ g, (thumbnails b l)[0]? = some (toBytes g) ∧ g.length = 228 ∧ ∀ x y : Nat, x < 48 → (pixel g 6 x y = true ↔ pixel blank 6 x y = true ∨
      ∃ k ∈ stitchBlocks ([] : List Unit) (fun _ => ()) l, ∃ a ∈ k.1,
        scaledPixel b.minX b.minY b.maxX b.maxY 228 6 4 a.x a.y = ((x : Int), (y : Int)))) ∧
    ∀ k blk, (colorBlocks ([] : List Unit) (fun _ => ()) l)[k]? = some blk →
      ∃ g, (thumbnails b l)[k + 1]? = some (toBytes g) ∧ g.length = 228 ∧ ∀ x y : Nat, x < 48 → (pixel g 6 x y = true ↔ pixel blank 6 x y = true ∨
        ∃ a ∈ blk.1, a.cmd = 0 ∧ scaledPixel b.minX b.minY b.maxX b.maxY 228 6 5 a.x a.y = ((x : Int), (y : Int))) := by
  have hl : l ≠ [] := by
    intro e; rw [e] at hb; cases hb
  obtain ⟨b', e', ht⟩ := C43_tight l hl
  rw [hb] at e'; cases e'
  refine ⟨by simp [thumbnails], ⟨_, by unfold thumbnails; rfl, ?_, ?_⟩, ?_⟩
  · exact (draw_blocks b _ (fun k hk a ha => ht.1 a (mem_block hk ha)) blank blank_length).1
  · exact blocks_pixels b _ (fun k hk a ha => ht.1 a (mem_block hk ha)) blank blank_length
  · intro k blk hk
    have hin : ∀ a ∈ blk.1, a ∈ l := by
      intro a ha
      have := color_mem ([] : List Unit) (fun _ => ()) l [] 0 blk (List.mem_of_getElem? hk) a ha
      simpa using this
    obtain ⟨h1, h2⟩ := C63_drawn b.minX b.minY b.maxX b.maxY 5 6 38 (by norm_num) (by norm_num) (by norm_num) (by norm_num)
      (points (blk.1.filter (fun st => decide (st.cmd = STITCH)))) (by
      intro p hp'
      obtain ⟨a, ha, rfl⟩ := List.mem_map.1 hp'
      exact ht.1 a (hin a (List.mem_filter.1 ha).1)) blank blank_length
    refine ⟨_, by unfold thumbnails; rw [List.getElem?_cons_succ, List.getElem?_map, hk]; rfl, h1, fun x y hx => ?_⟩
    rw [h2 x y (by omega)]
    constructor
    · rintro (h | ⟨p, hp', e⟩)
      · exact .inl h
      · obtain ⟨a, ha, rfl⟩ := List.mem_map.1 hp'
        obtain ⟨ha, h0⟩ := List.mem_filter.1 ha
        exact .inr ⟨a, ha, of_decide_eq_true h0, e⟩
    · rintro (h | ⟨a, ha, h0, e⟩)
      · exact .inl h
      · exact .inr ⟨(a.x, a.y), List.mem_map.2 ⟨a, List.mem_filter.2 ⟨ha, decide_eq_true h0⟩, rfl⟩, e⟩

end Pec

namespace Pes

open Pec

/-- **C90**: colour numbers count modulo 65. -/
theorem C90_modulo (chart : List Thread) (colors : Bytes) : mapColors chart colors = mapColors chart (colors.map (· % 65)) := by
  have loop : ∀ (colors : Bytes) (seen : List (Int × Option Thread)) (chart : List Thread),
      tableLoop seen chart colors = tableLoop seen chart (colors.map (· % 65)) := by
    intro colors
    induction colors with
    | nil => intro seen chart; rfl
    | cons b rest ih =>
      intro seen chart
      have e : b % 65 % 65 = b % 65 := by omega
      rw [List.map_cons, tableLoop.eq_def, tableLoop.eq_def]
      simp only [e]
      split
      · rw [ih]
      · split
        · rw [ih]
        · rw [ih]
  unfold mapColors
  rw [List.length_map, ← loop colors [] chart, List.map_map]
  have e : ∀ b : Int, b % 65 % 65 = b % 65 := by intro b; omega
  simp only [Function.comp_def, e]

/-- **C90**: the thread table of the header is looked at only if there are no programmable fills, motifs and feather patterns, whose
numbers `a`, `b`, `c` precede it; otherwise there are no threads. -/
theorem C90_counts (a b c : Nat) (ha : a < 2 ^ 16) (hb : b < 2 ^ 16) (hc : c < 2 ^ 16) (rest : Bytes) :
    readChart (writeInt16le a ++ writeInt16le b ++ writeInt16le c ++ rest) =
      if a = 0 ∧ b = 0 ∧ c = 0 then
        match readInt16le rest with
        | (none, _) => .error .typeError
        | (some n, r) => readThreads n.toNat r
      else .ok [] := by
  have rd : ∀ (n : Nat) (r : Bytes), n < 2 ^ 16 → readInt16le (writeInt16le n ++ r) = (some (n : Int), r) := by
    intro n r hn
    rw [(C02_read_write _ _).2.1, Int.emod_eq_of_lt (by omega) (by omega)]
  unfold readChart
  simp only [List.append_assoc, rd a _ ha, rd b _ hb, rd c _ hc]
  by_cases h1 : a = 0
  · by_cases h2 : b = 0
    · by_cases h3 : c = 0
      · simp only [h1, h2, h3, Nat.cast_zero, ne_eq, not_true_eq_false, if_false, and_self, if_true]
        rfl
      · simp [h1, h2, h3]
    · simp [h1, h2]
  · simp [h1]

/-- **C79**: the PES reader takes a PEC file as the PEC reader does. -/
theorem C79_pec (rest : Bytes) :
    readFile (utf8 "#PEC0001".toList ++ rest) = (Pec.readFile (utf8 "#PEC0001".toList ++ rest)).map (fun d => ⟨none, [], d⟩) := by
  have e : (utf8 "#PEC0001".toList) = [35, 80, 69, 67, 48, 48, 48, 49] := by decide +kernel
  have e2 : decodeUtf8 [35, 80, 69, 67, 48, 48, 48, 49] = some "#PEC0001".toList := by decide +kernel
  unfold readFile Pec.readFile
  rw [e]
  simp only [List.cons_append, List.nil_append, List.take_succ_cons, List.take_zero, List.drop_succ_cons, List.drop_zero, e2, if_true]
  cases Pec.readPattern [] rest <;> rfl

/-- What `allSome` yields. -/
theorem allSome_eq {α : Type} (l : List (Option α)) (r : List α) (h : allSome l = some r) : l = r.map some := by
  induction l generalizing r with
  | nil => injection h with h; subst h; rfl
  | cons a l ih =>
    cases a with
    | none => cases h
    | some a =>
      rw [allSome] at h
      cases hr : allSome l with
      | none => rw [hr] at h; cases h
      | some r' => rw [hr] at h; injection h with h; subst h; rw [ih r' hr]; rfl

/-- **C79**: the end of a file of version 6. After the PEC part come 128 bytes, the number of threads less one and their palette numbers as in
the PEC part (there at byte 48), filled with spaces; 144 zero bytes for each thread; three bytes of colour for each thread, blue
first; and two zero bytes. -/
theorem C79_addendum (f32 : ℚ → Bytes) (order : List Thread → List Thread) (filler filler' fillerSeg : Nat → Thread) (texts : Texts)
    (threads : List Thread) (l : List Stitch) (f : Bytes) (T : List Thread)
    (hT : T = fixColorCount (prepare filler threads l).2 filler' (prepare filler threads l).1) (h0 : T ≠ []) (hn : T.length < 128)
    (hname : ∀ c ∈ (texts.name.getD "Untitled".toList).take 8, c.utf8Size = 1)
    (hf : writeFile f32 order filler filler' fillerSeg texts 6 false threads l = .ok f) :
    ∃ front pec ix spaces zeros : Bytes, f = front ++ pec ++ (ix ++ spaces ++ zeros ++
        T.flatMap (fun t => [t.color % 256, t.color / 256 % 256, t.color / 65536 % 256]) ++ [0, 0]) ∧
      ix = (pec.drop 48).take (T.length + 1) ∧ ix.length = T.length + 1 ∧ ix.head? = some ((T.length : Int) - 1) ∧
      (ix ++ spaces).length = 128 ∧ (∀ v ∈ spaces, v = 0x20) ∧ zeros.length = 144 * T.length ∧ (∀ v ∈ zeros, v = 0) := by
  have key : ∀ (before pec : Bytes), writePattern order texts.name T (prepare filler threads l).1 = .ok pec →
      ∃ front pec' ix spaces zeros : Bytes,
        assemble "#PES0060" before pec (addendum (colorIndices order T) (T.map (·.color)) ++ writeInt16le 0) = front ++ pec' ++ (ix ++ spaces ++ zeros ++
          T.flatMap (fun t => [t.color % 256, t.color / 256 % 256, t.color / 65536 % 256]) ++ [0, 0]) ∧
        ix = (pec'.drop 48).take (T.length + 1) ∧ ix.length = T.length + 1 ∧ ix.head? = some ((T.length : Int) - 1) ∧
        (ix ++ spaces).length = 128 ∧ (∀ v ∈ spaces, v = 0x20) ∧ zeros.length = 144 * T.length ∧ (∀ v ∈ zeros, v = 0) := by
    intro before pec hp
    unfold writePattern at hp
    cases hc : allSome (buildUnique palette (order T) T) with
    | none => rw [hc] at hp; cases hp
    | some colors =>
      rw [hc] at hp
      have hu := allSome_eq _ _ hc
      have hlen : colors.length = T.length := by
        have := congrArg List.length hu
        rw [List.length_map] at this
        rw [← this]; simp [buildUnique]
      have hpos : 0 < T.length := List.length_pos_iff.2 h0
      have hix : colorIndices order T = ((T.length : Int) - 1) :: colors.map (fun c : Nat => (c : Int)) := by
        unfold colorIndices
        rw [hu]
        simp only [List.map_map]
        rw [if_neg (by
          intro e
          have e := congrArg List.length e
          rw [List.length_map, List.length_nil] at e
          omega)]
        simp [hlen]
      cases hb : bounds (prepare filler threads l).1 with
      | none =>
        rw [hb] at hp
        cases hh : header (texts.name.getD "Untitled".toList) colors <;> simp only [hh] at hp <;> cases hp
      | some b =>
        rw [hb] at hp
        simp only at hp
        unfold Pec.write header at hp
        rw [if_neg (by omega)] at hp
        refine ⟨utf8 "#PES0060".toList ++ writeInt32le ((utf8 "#PES0060".toList).length + 4 + before.length : Nat) ++ before, pec, colorIndices order T, List.replicate (128 - (colorIndices order T).length) 0x20,
          List.replicate ((T.map (·.color)).length * 0x90) 0, ?_, ?_, ?_, ?_, ?_, ?_, ?_, ?_⟩
        · unfold assemble addendum
          rw [List.flatMap_map]
          have e24 : ∀ v : Int, writeInt24le v = [v % 256, v / 256 % 256, v / 65536 % 256] := by
            intro v; simp [writeInt24le, lo8, shr]
          have e16 : writeInt16le 0 = [0, 0] := by decide +kernel
          simp only [e24, e16]
        · have hlab := label_length (texts.name.getD "Untitled".toList) hname
          rw [if_pos (by omega)] at hp
          change Except.ok _ = Except.ok pec at hp
          injection hp with hp
          rw [hix, ← hp, hlen]
          have e48 : ∀ (a b c d x y r1 r2 r3 : Bytes), a.length = 20 → b.length = 14 → c.length = 1 → d.length = 1 → x.length = 12 →
              y.length = T.length + 1 → y = ((a ++ b ++ c ++ d ++ (x ++ y) ++ r1 ++ r2 ++ r3).drop 48).take (T.length + 1) := by
            intro a b c d x y r1 r2 r3 h1 h2 h3 h4 h5 h6
            have e : a ++ b ++ c ++ d ++ (x ++ y) ++ r1 ++ r2 ++ r3 = (a ++ b ++ c ++ d ++ x) ++ (y ++ (r1 ++ r2 ++ r3)) := by
              simp only [List.append_assoc]
            have hl : (a ++ b ++ c ++ d ++ x).length = 48 := by simp only [List.length_append]; omega
            rw [e, ← hl, List.drop_left, ← h6, List.take_left]
          exact e48 _ _ _ _ _ _ _ _ _ hlab (by simp) rfl rfl (by simp) (by simp [hlen])
        · rw [hix]; simp [hlen]
        · rw [hix]; rfl
        · have : (colorIndices order T).length = T.length + 1 := by rw [hix]; simp [hlen]
          rw [List.length_append, List.length_replicate]; omega
        · exact fun v hv => List.eq_of_mem_replicate hv
        · simp; omega
        · exact fun v hv => List.eq_of_mem_replicate hv
  unfold writeFile writeV6 at hf
  simp only [← hT] at hf
  rw [if_neg (by decide), if_neg (by norm_num), if_pos trivial] at hf
  cases hb : bounds (prepare filler threads l).1 with
  | none =>
    rw [hb] at hf
    simp only at hf
    cases hw : writePattern order texts.name T (prepare filler threads l).1 with
    | error e => rw [hw] at hf; cases hf
    | ok pec =>
      rw [hw] at hf
      change Except.ok _ = Except.ok f at hf
      injection hf with hf
      rw [← hf]
      exact key _ pec hw
  | some b =>
    rw [hb] at hf
    simp only at hf
    cases hbl : blocks f32 T fillerSeg (T.map some) b (prepare filler threads l).1 with
    | error e => rw [hbl] at hf; cases hf
    | ok r =>
      rw [hbl] at hf
      change (Except.map _ (writePattern order texts.name T (prepare filler threads l).1)) = Except.ok f at hf
      cases hw : writePattern order texts.name T (prepare filler threads l).1 with
      | error e => rw [hw] at hf; cases hf
      | ok pec =>
        rw [hw] at hf
        change Except.ok _ = Except.ok f at hf
        injection hf with hf
        rw [← hf]
        exact key _ pec hw

/-! ## Examples -/

/-- The example file of C79 meets the hypotheses of `C79_addendum`, and ends so. -/
example : (match writeFile (fun _ => [0, 0, 0, 0]) List.dedup (fun _ => { color := 0 }) (fun _ => { color := 0 }) (fun _ => { color := 0 }) {} 6
      false pesThreads fileDemo with
    | .ok f => (f.drop (f.length - 11), (f.drop (f.length - 11 - 432 - 128)).take 6)
    | .error _ => ([], [])) =
  ([0x1F, 0x17, 0xED, 0x1F, 0x17, 0xED, 0xFE, 0x00, 0x00, 0, 0], [2, 5, 5, 21, 0x20, 0x20]) := by decide +kernel

/-- Numbers 70 and 5 are the same colour. -/
example : mapColors [{ color := 1 }] [5, 70] = [some { color := 1 }, some { color := 1 }] := by decide +kernel

/-- A header with a motif: the threads are not read. -/
example : (readChart [0, 0, 1, 0, 0, 0, 1, 0, 0, 1, 2, 3, 0, 0, 0, 0, 0, 0, 0, 0]).toOption = some [] := by decide +kernel

theorem entry_full {key : String} {v : Option Str} : ∀ e ∈ entry key v, e.1 = key ∧ e.2 ≠ [] := by
  intro e he
  rcases v with _ | (_ | ⟨c, t⟩) <;> simp [entry] at he
  subst he; simp

theorem meta_full (s : Bytes) : ∀ e ∈ (readMeta s).1, e.1 ∈ ["name", "category", "author", "keywords", "comments"] ∧ e.2 ≠ [] := by
  intro e he
  unfold readMeta at he
  simp only [List.mem_append] at he
  rcases he with (((he | he) | he) | he) | he <;> (obtain ⟨h1, h2⟩ := entry_full e he; exact ⟨by rw [h1]; decide, h2⟩)

/-- **C90**: whatever the bytes, no text of a header is empty and the header sets no metadata but these; a file that ends within the header has no
text for what is missing. -/
theorem C90_texts {f : Bytes} {d : Design} (h : readFile f = .ok d) :
    ∀ e ∈ d.texts, e.1 ∈ ["name", "category", "author", "keywords", "comments", "image", "image_file", "hoop_name"] ∧ e.2 ≠ [] := by
  have up : ∀ {k : String}, k ∈ ["name", "category", "author", "keywords", "comments"] →
      k ∈ ["name", "category", "author", "keywords", "comments", "image", "image_file", "hoop_name"] := by
    intro k hk
    simp only [List.mem_cons, List.not_mem_nil, or_false] at hk ⊢
    rcases hk with h | h | h | h | h <;> simp [h]
  have hd : ∀ (key : String) (a b : Nat) (s : Bytes) (w : Option ℚ) r, key ∈ ["image", "image_file"] →
      (readHeader key a b s).map (fun r => (w, r)) = .ok r →
      ∀ e ∈ r.2.1, e.1 ∈ ["name", "category", "author", "keywords", "comments", "image", "image_file", "hoop_name"] ∧ e.2 ≠ [] := by
    intro key a b s w r hk hr e he
    unfold readHeader at hr
    cases hc : readChart ((readString ((readMeta (s.drop 4)).2.drop a)).2.drop b) with
    | error x => simp [hc, Except.map] at hr
    | ok ts =>
      simp only [hc, Except.map, Except.ok.injEq] at hr
      subst hr
      rcases List.mem_append.1 he with he | he
      · exact ⟨up (meta_full _ e he).1, (meta_full _ e he).2⟩
      · obtain ⟨h1, h2⟩ := entry_full e he
        refine ⟨?_, h2⟩
        rw [h1]
        simp only [List.mem_cons, List.not_mem_nil, or_false] at hk
        rcases hk with h | h <;> simp [h]
  have hh : ∀ (a : Nat) (s : Bytes) (w : Option ℚ) r, (readHoopHeader a s).map (fun r => (w, r)) = .ok r →
      ∀ e ∈ r.2.1, e.1 ∈ ["name", "category", "author", "keywords", "comments", "image", "image_file", "hoop_name"] ∧ e.2 ≠ [] := by
    intro a s w r hr e he
    unfold readHoopHeader at hr
    cases hc : readChart ((readString ((readString ((readMeta (s.drop 4)).2.drop 14)).2.drop a)).2.drop 34) with
    | error x => simp [hc, Except.map] at hr
    | ok ts =>
      simp only [hc, Except.map, Except.ok.injEq] at hr
      subst hr
      simp only [List.mem_append] at he
      rcases he with (he | he) | he
      · exact ⟨up (meta_full _ e he).1, (meta_full _ e he).2⟩
      · obtain ⟨h1, h2⟩ := entry_full e he
        exact ⟨by rw [h1]; decide, h2⟩
      · obtain ⟨h1, h2⟩ := entry_full e he
        exact ⟨by rw [h1]; decide, h2⟩
  have ver : ∀ sig s r, readVersion sig s = .ok r →
      ∀ e ∈ r.2.1, e.1 ∈ ["name", "category", "author", "keywords", "comments", "image", "image_file", "hoop_name"] ∧ e.2 ≠ [] := by
    intro sig s r hr
    unfold readVersion at hr
    have it : ∀ {c : Prop} [Decidable c] {x y : Except PyErr (Option ℚ × List (String × Str) × List Thread)} {P : Prop},
        (if c then x else y) = .ok r → (x = .ok r → P) → (y = .ok r → P) → P := by
      intro c _ x y P h h1 h2
      by_cases hc : c
      · rw [if_pos hc] at h; exact h1 h
      · rw [if_neg hc] at h; exact h2 h
    iterate 2 refine it hr (fun hr => hh _ _ _ _ hr) fun hr => ?_
    iterate 6 refine it hr (fun hr => hd _ _ _ _ _ _ (by simp) hr) fun hr => ?_
    refine it hr (fun hr => ?_) fun hr => ?_
    · injection hr with hr
      subst hr
      exact fun e he => ⟨up (meta_full _ e he).1, (meta_full _ e he).2⟩
    have no : ∀ {w : Option ℚ}, (.ok (w, [], []) : Except PyErr (Option ℚ × List (String × Str) × List Thread)) = .ok r →
        ∀ e ∈ r.2.1, e.1 ∈ ["name", "category", "author", "keywords", "comments", "image", "image_file", "hoop_name"] ∧ e.2 ≠ [] := by
      intro w hr
      injection hr with hr
      subst hr
      intro e he
      exact absurd he (by simp)
    iterate 4 refine it hr no fun hr => ?_
    exact no hr
  unfold readFile at h
  split_ifs at h with h0
  · cases hp : Pec.readPattern [] (f.drop 8) with
    | error x => rw [hp] at h; cases h
    | ok q =>
      rw [hp] at h
      injection h with h
      subst h
      intro e he
      simp at he
  · simp only at h
    cases hv : readVersion (decodeUtf8 (f.take 8)) (readInt32le (f.drop 8)).2 with
    | error x => rw [hv] at h; cases h
    | ok r =>
      rw [hv] at h
      have h : (match (readInt32le (f.drop 8)).1 with
        | none => (.error .typeError : Except PyErr Design)
        | some pos => (Pec.readPattern r.2.2 (f.drop pos.toNat)).map (fun d : Pec.Design => (⟨r.1, r.2.1, d.stops⟩ : Design))) = .ok d := h
      cases hp : (readInt32le (f.drop 8)).1 with
      | none => rw [hp] at h; cases h
      | some pos =>
        rw [hp] at h
        simp only at h
        cases hq : Pec.readPattern r.2.2 (f.drop pos.toNat) with
        | error x => rw [hq] at h; cases h
        | ok q =>
          rw [hq] at h
          injection h with h
          subst h
          exact ver _ _ _ hv

end Pes
end Emb
