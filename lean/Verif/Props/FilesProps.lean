import Verif.Files
import Verif.DstRead
import Verif.Props.DispatchProps

/-!
# C114: what saving does to the files on the disk

The disk is a function from names to contents. The statements speak of the disk before and after a call, of the exception the
call raised, and of the bytes a writer gives to its stream.
-/

namespace Emb
namespace Files

open Dispatch

variable {π : Type}

theorem put_at (d : Disk) (n : Str) (b : Bytes) : put d n b n = some b := if_pos rfl

theorem put_ne (d : Disk) (n : Str) (b : Bytes) {m : Str} (h : m ≠ n) : put d n b m = d m := if_neg h

theorem put_put (d : Disk) (n : Str) (b c : Bytes) : put (put d n b) n c = put d n c := by
  funext m
  unfold put
  split <;> rfl

theorem overlay_nil (b : Bytes) : overlay b [] = b := by simp [overlay]

/-- The writer does not write a second file under the name of the first. -/
def Apart (w : Written) (n : Str) : Prop := ∀ s ∈ w.side, s.1 ≠ n

/-- The disk after a writer ran. -/
theorem writeFile_at (L : Lib π) (e : Str) (p : π) (n : Str) (d : Disk) (ho : L.opens n = true) (ha : Apart (L.write e p) n) :
    (writeFile L e p n d).1 n = some (L.write e p).bytes := by
  rw [writeFile, if_pos ho]
  show put _ n _ n = _
  rw [put_at]
  congr 1
  cases hs : (L.write e p).side with
  | none => simp [put_at, overlay_nil]
  | some s =>
    have := ha s hs
    simp [put_at, put_ne _ _ _ (Ne.symm this), overlay_nil]

theorem writeFile_other (L : Lib π) (e : Str) (p : π) (n m : Str) (d : Disk) (hm : m ≠ n)
    (hs : ∀ s ∈ (L.write e p).side, s.1 ≠ m) : (writeFile L e p n d).1 m = d m := by
  unfold writeFile
  split
  · show put _ n _ m = _
    rw [put_ne _ _ _ hm]
    cases h : (L.write e p).side with
    | none => simp [put_ne _ _ _ hm]
    | some s => simp [put_ne _ _ _ (Ne.symm (hs s h)), put_ne _ _ _ hm]
  · rfl

/-- A name with the extension of a format that has a writer is written by that writer. -/
theorem save_format (L : Lib π) (hl : LowersAscii L.lower) (n : Str) (f : Format) (hf : f ∈ formats)
    (hs : Spells (extension n) f.ext) (hw : f.writer = true) (p : Option π) (d : Disk) :
    save L p n d = writeEmbroidery L f.ext p n d := by
  rw [save, C64_write L.lower hl .ok n f hf hs, if_pos hw]

/-- C114: a name with an unknown extension, or with the extension of a format that cannot be written, raises `IOError`, and
every file is as before. -/
theorem C114_refused (L : Lib π) (n : Str) (p : Option π) (d : Disk)
    (h : ∀ f ∈ formats, L.lower (extension n) = f.ext → f.writer = false) : save L p n d = (d, some .ioError) := by
  unfold save
  have : staticWrite L.lower .ok n = .error .ioError := by
    unfold staticWrite
    split
    · cases hf : formats.reverse.find? (fun f => f.ext = L.lower (extension n)) with
      | none =>
        rename_i hm
        obtain ⟨f, hf', he⟩ := List.mem_map.1 hm
        have := List.find?_eq_none.1 hf f (List.mem_reverse.2 hf')
        simp [he] at this
      | some f =>
        have h0 := List.find?_some hf
        have h1 := of_decide_eq_true h0
        have h2 := h f (List.mem_reverse.1 (List.mem_of_find?_eq_some hf)) h1.symm
        simp [h2]
    · rfl
  rw [this]

/-- C114: if the normalization of the design raises an exception, the caller gets it, and every file is as before, also the one
that was to be replaced. -/
theorem C114_normalize (L : Lib π) (hl : LowersAscii L.lower) (n : Str) (f : Format) (hf : f ∈ formats)
    (hs : Spells (extension n) f.ext) (hw : f.writer = true) (p : π) (x : PyErr) (he : L.encodes f.ext = true)
    (hx : L.normalize f.ext p = .error x) (d : Disk) : save L (some p) n d = (d, some x) := by
  rw [save_format L hl n f hf hs hw]
  simp [writeEmbroidery, he, hx]

/-- C114: saving nothing (`None`) to a name with a writer does nothing. -/
theorem C114_none (L : Lib π) (hl : LowersAscii L.lower) (n : Str) (f : Format) (hf : f ∈ formats)
    (hs : Spells (extension n) f.ext) (hw : f.writer = true) (d : Disk) : save L none n d = (d, none) := by
  rw [save_format L hl n f hf hs hw]
  rfl

/-- What the writer of the format gets: the normalized design, or the design itself if nothing is to be normalized. -/
def Handed (L : Lib π) (e : Str) (p q : π) : Prop :=
  (L.encodes e = true ∧ L.normalize e p = .ok q) ∨ (L.encodes e = false ∧ q = p)

theorem save_handed (L : Lib π) (hl : LowersAscii L.lower) (n : Str) (f : Format) (hf : f ∈ formats)
    (hs : Spells (extension n) f.ext) (hw : f.writer = true) (p q : π) (hq : Handed L f.ext p q) (d : Disk) :
    save L (some p) n d = writeFile L f.ext q n d := by
  rw [save_format L hl n f hf hs hw]
  rcases hq with ⟨he, hq⟩ | ⟨he, rfl⟩
  · simp [writeEmbroidery, he, hq]
  · simp [writeEmbroidery, he]

/-- C114: after a save that raised nothing the file contains exactly the bytes of the writer, whatever stood in it before. -/
theorem C114_saved (L : Lib π) (hl : LowersAscii L.lower) (n : Str) (f : Format) (hf : f ∈ formats)
    (hs : Spells (extension n) f.ext) (hw : f.writer = true) (p q : π) (hq : Handed L f.ext p q) (ho : L.opens n = true)
    (ha : Apart (L.write f.ext q) n) (b : Bytes) (hb : (L.write f.ext q).result = .ok b) (d : Disk) :
    (save L (some p) n d).2 = none ∧ (save L (some p) n d).1 n = some b := by
  rw [save_handed L hl n f hf hs hw p q hq, writeFile_at L _ _ _ _ ho ha]
  unfold Written.result at hb
  split at hb
  · rename_i h
    cases hb
    exact ⟨by rw [writeFile, if_pos ho]; exact h, rfl⟩
  · cases hb

/-- C114: saving changes no file but the named one and the one the writer was told to write beside it, however it ends. -/
theorem C114_only (L : Lib π) (p : Option π) (n m : Str) (d : Disk) (hm : m ≠ n)
    (hs : ∀ e q, ∀ s ∈ (L.write e q).side, s.1 ≠ m) : (save L p n d).1 m = d m := by
  unfold save
  split
  · rfl
  · unfold writeEmbroidery
    split
    · rfl
    · split
      · rfl
      · exact writeFile_other L _ _ n m d hm (hs _ _)

/-- C114: a design that was saved without an exception and is opened again from the same name is what the reader makes of the
bytes of the writer. -/
theorem C114_reopened (L : Lib π) (hl : LowersAscii L.lower) (n : Str) (f : Format) (hf : f ∈ formats)
    (hs : Spells (extension n) f.ext) (hw : f.writer = true) (hr : f.reader = true) (p q : π) (hq : Handed L f.ext p q)
    (ho : L.opens n = true) (ha : Apart (L.write f.ext q) n) (b : Bytes) (hb : (L.write f.ext q).result = .ok b) (d : Disk) :
    load L n (save L (some p) n d).1 = (L.read f.ext b).map some := by
  rw [load, C64_read L.lower hl _ n f hf hs, if_pos hr, readEmbroidery,
    (C114_saved L hl n f hf hs hw p q hq ho ha b hb d).2]

/-- C114: a name with a reader but no file raises `IOError`; a name without a reader is `None`, whether there is a file or
not. -/
theorem C114_missing (L : Lib π) (hl : LowersAscii L.lower) (n : Str) (f : Format) (hf : f ∈ formats)
    (hs : Spells (extension n) f.ext) (d : Disk) (hd : d n = none) :
    load L n d = if f.reader then .error .ioError else .ok none := by
  rw [load, C64_read L.lower hl _ n f hf hs, readEmbroidery, hd]
  rfl

/-- C114: converting writes what was in the first file before the call, also if both names are the same: the file is replaced
by the converted one. -/
theorem C114_convert (L : Lib π) (hl : LowersAscii L.lower) (a n : Str) (g f : Format) (hg : g ∈ formats) (hf : f ∈ formats)
    (ha : Spells (extension a) g.ext) (hs : Spells (extension n) f.ext) (hr : g.reader = true) (hw : f.writer = true)
    (d : Disk) (old : Bytes) (hd : d a = some old) (p q : π) (hp : L.read g.ext old = .ok p) (hq : Handed L f.ext p q)
    (ho : L.opens n = true) (hap : Apart (L.write f.ext q) n) (b : Bytes) (hb : (L.write f.ext q).result = .ok b) :
    (convert L a n d).2 = none ∧ (convert L a n d).1 n = some b := by
  have : convert L a n d = save L (some p) n d := by
    rw [convert, load, C64_read L.lower hl _ a g hg ha, if_pos hr, readEmbroidery, hd]
    simp only [hp]
    rfl
  rw [this]
  exact C114_saved L hl n f hf hs hw p q hq ho hap b hb d

/-- C114: if the first file cannot be read, or has no reader, converting changes no file. -/
theorem C114_convert_refused (L : Lib π) (a n : Str) (d : Disk) (h : ∀ p, load L a d ≠ .ok (some p)) :
    (convert L a n d).1 = d := by
  unfold convert
  split
  · rfl
  · rfl
  · rename_i p hp
    exact absurd hp (h p)

/-- C114, the full claim fails: if the writer raises an exception, what stood in the file is lost, and what the writer had given
to its stream stands there instead. -/
theorem C114_lost (L : Lib π) (hl : LowersAscii L.lower) (n : Str) (f : Format) (hf : f ∈ formats)
    (hs : Spells (extension n) f.ext) (hw : f.writer = true) (p q : π) (hq : Handed L f.ext p q) (ho : L.opens n = true)
    (ha : Apart (L.write f.ext q) n) (x : PyErr) (hx : (L.write f.ext q).result = .error x) (d : Disk) :
    (save L (some p) n d).2 = some x ∧ (save L (some p) n d).1 n = some (L.write f.ext q).bytes := by
  rw [save_handed L hl n f hf hs hw p q hq, writeFile_at L _ _ _ _ ho ha]
  unfold Written.result at hx
  split at hx
  · cases hx
  · rename_i h
    cases hx
    exact ⟨by rw [writeFile, if_pos ho]; exact h, rfl⟩

/-- **C114.** A file that cannot be opened: saving reports it and leaves the disk as it is. -/
theorem C114_unopened (L : Lib π) (hl : LowersAscii L.lower) (n : Str) (f : Format) (hf : f ∈ formats)
    (hs : Spells (extension n) f.ext) (hw : f.writer = true) (p q : π) (d : Disk)
    (hh : Handed L f.ext p q) (ho : L.opens n = false) : save L (some p) n d = (d, some .ioError) := by
  rw [save_handed L hl n f hf hs hw p q hh]
  unfold writeFile
  rw [ho]
  rfl

/-- **C114.** A writer whose other file has the name of the file itself (the TBF writer takes the name of its `ct0` file from the settings): the
design is written over the beginning of the other file, whose rest stays behind it. -/
theorem C114_same_name (L : Lib π) (hl : LowersAscii L.lower) (n : Str) (f : Format) (hf : f ∈ formats)
    (hs : Spells (extension n) f.ext) (hw : f.writer = true) (p q : π) (d : Disk)
    (hh : Handed L f.ext p q) (ho : L.opens n = true) (b : Bytes) (hb : (L.write f.ext q).side = some (n, b)) :
    ∃ c, (save L (some p) n d).1 n = some c ∧ c.take (L.write f.ext q).bytes.length = (L.write f.ext q).bytes ∧
      c.drop (L.write f.ext q).bytes.length = b.drop (L.write f.ext q).bytes.length := by
  rw [save_handed L hl n f hf hs hw p q hh]
  unfold writeFile
  rw [ho]
  simp only [if_true, hb, put_at, Option.getD_some]
  exact ⟨_, rfl, by simp [overlay], by simp [overlay]⟩

theorem dst_mem : both "dst" ∈ formats := by decide +kernel

theorem dst_spells : Spells (extension "rose.dst".toList) (both "dst").ext := by
  constructor <;> decide +kernel

/-- C114, the full claim fails: a design without commands, saved as DST with `encode` off over a good file, raises
`OverflowError`, and the good file is gone: what stands there does not depend on it. -/
theorem C114_fails (L : Lib Doc) (hl : LowersAscii L.lower) (he : L.encodes "dst".toList = false)
    (ho : L.opens "rose.dst".toList = true) (extended : Bool) (trimAt : Int)
    (hw : ∀ doc, (L.write "dst".toList doc).side = none ∧ (L.write "dst".toList doc).result = Dst.writeDoc extended trimAt doc) :
    ∃ doc b, ∀ d : Disk, (save L (some doc) "rose.dst".toList d).2 = some .overflowError ∧
      (save L (some doc) "rose.dst".toList d).1 "rose.dst".toList = some b := by
  refine ⟨{}, _, fun d => C114_lost L hl _ (both "dst") dst_mem dst_spells rfl {} {} (.inr ⟨he, rfl⟩) ho ?_ _ ?_ d⟩
  · intro s hs
    rw [show (both "dst").ext = "dst".toList from rfl, (hw {}).1] at hs
    cases hs
  · rw [show (both "dst").ext = "dst".toList from rfl, (hw {}).2]
    rfl

/-- A library with the DST writer of the model (its reader takes every file for an empty design). -/
def demo : Lib Doc where
  lower := asciiLower
  read _ _ := .ok {}
  encodes _ := false
  normalize _ p := .ok p
  write _ doc := match Dst.writeDoc false 3 doc with
    | .ok b => ⟨b, none, none⟩
    | .error x => ⟨utf8 "LA:Untitled        \rST:      0\rCO:  0\r".toList, none, some x⟩
  opens _ := true

theorem demo_result (e : Str) (doc : Doc) : (demo.write e doc).result = Dst.writeDoc false 3 doc := by
  unfold demo
  simp only
  cases Dst.writeDoc false 3 doc <;> rfl

theorem demo_side (e : Str) (doc : Doc) : (demo.write e doc).side = none := by
  unfold demo
  simp only
  cases Dst.writeDoc false 3 doc <;> rfl

/-- The library meets the hypotheses of `C114_fails`. -/
example : ∃ doc b, ∀ d : Disk, (save demo (some doc) "rose.dst".toList d).2 = some .overflowError ∧
    (save demo (some doc) "rose.dst".toList d).1 "rose.dst".toList = some b :=
  C114_fails demo (fun _ _ => rfl) rfl rfl false 3 (fun doc => ⟨demo_side _ doc, demo_result _ doc⟩)

/-- A name with the extension of a format that can only be read. -/
example (p : Option Doc) (d : Disk) : save demo p "rose.HUS".toList d = (d, some .ioError) :=
  C114_refused demo _ p d (by decide +kernel)

/-- One command at the origin is saved, whatever the disk contains. -/
example (d : Disk) : ∃ b, b ≠ [] ∧ (save demo (some { stitches := [⟨0, 0, 0⟩] }) "rose.dst".toList d).1 "rose.dst".toList = some b := by
  obtain ⟨b, hb, hn⟩ : ∃ b, Dst.writeDoc false 3 { stitches := [⟨0, 0, 0⟩] } = .ok b ∧ b ≠ [] := by
    cases h : Dst.writeDoc false 3 { stitches := [⟨0, 0, 0⟩] } with
    | ok b =>
      refine ⟨b, rfl, ?_⟩
      rintro rfl
      exact absurd h (by decide +kernel)
    | error x =>
      have : (match Dst.writeDoc false 3 { stitches := [⟨0, 0, 0⟩] } with | .ok _ => true | .error _ => false) = true := by
        decide +kernel
      rw [h] at this
      cases this
  refine ⟨b, hn, (C114_saved demo (fun _ _ => rfl) _ (both "dst") dst_mem dst_spells rfl _ { stitches := [⟨0, 0, 0⟩] } (.inr ⟨rfl, rfl⟩) rfl ?_ b
    ((demo_result _ _).trans hb) d).2⟩
  intro s hs
  rw [demo_side] at hs
  cases hs

end Files
end Emb
