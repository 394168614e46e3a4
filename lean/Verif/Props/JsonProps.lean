import Verif.Json
import Verif.Props.CsvProps

/-!
# Property C71: JSON files
-/

namespace Emb
namespace Json

/-- **C71**: a pattern whose commands have names is read back from its JSON file with the same stitches (positions and
whole command words), the same threads in every field (the colour as its 24 bits), and the same metadata except for
values that are neither text nor number. Missing for the full claim: commands without a name (`C58_unnamed`). -/
theorem C71_roundtrip_partial (rnd : Int) (p : Pat)
    (hs : ∀ st ∈ p.stitches, 0 ≤ st.cmd ∧ st.cmd < 2 ^ 32 ∧ st.cmd % 256 ∈ named) :
    read rnd (write p) = .ok ⟨p.stitches, p.threads.map (fun t => { t with color := t.color % 16777216 }),
      p.extras.filter (fun e => match e.2 with | .str _ => true | .int _ => true | .float _ => true | .other _ => false)⟩ := by
  have h1 : ∀ ts : List Thread, (ts.map (fun t => (⟨hexColor t, t.description, t.catalog, t.details, t.brand, t.chart,
      t.weight⟩ : JThread))).mapM (readThread rnd) = .ok (ts.map (fun t => { t with color := t.color % 16777216 })) := by
    intro ts
    induction ts with
    | nil => rfl
    | cons t ts ih =>
      rw [List.map_cons, List.mapM_cons, ih]
      unfold readThread
      simp only [Csv.parse_hexColor]
      rfl
  have h2 : ∀ l : List Stitch, (∀ st ∈ l, 0 ≤ st.cmd ∧ st.cmd < 2 ^ 32 ∧ st.cmd % 256 ∈ named) →
      (l.map (fun s => (s.x, s.y, decodedName s.cmd))).mapM readStitch = .ok l := by
    intro l
    induction l with
    | nil => intro _; rfl
    | cons s l ih =>
      intro h
      have hw := h s (by simp)
      rw [List.map_cons, List.mapM_cons, ih (fun s hs => h s (by simp [hs]))]
      unfold readStitch
      simp only [C58_roundtrip_partial s.cmd hw.1 hw.2.1 hw.2.2]
      rfl
  have h3 : (fun e : Str × Meta => e.2.kept) =
      (fun e => match e.2 with | .str _ => true | .int _ => true | .float _ => true | .other _ => false) := by
    funext e; unfold Meta.kept; cases e.2 <;> rfl
  rw [← h3]
  unfold read write
  simp only [h1, h2 p.stitches hs]
  rfl

/-- A command without a name makes the file unreadable. -/
theorem C71_unnamed (rnd : Int) (p : Pat) (h : ∃ st ∈ p.stitches, st.cmd % 256 ∉ named) :
    read rnd (write p) = .error .keyError := by
  have h2 : ∀ l : List Stitch, (∃ st ∈ l, st.cmd % 256 ∉ named) →
      (l.map (fun s => (s.x, s.y, decodedName s.cmd))).mapM readStitch = .error .keyError := by
    intro l
    induction l with
    | nil => rintro ⟨_, h, _⟩; cases h
    | cons s l ih =>
      intro h
      rw [List.map_cons, List.mapM_cons]
      by_cases hn : s.cmd % 256 ∈ named
      · have : readStitch (s.x, s.y, decodedName s.cmd) = .ok ⟨s.x, s.y, s.cmd % 2 ^ 32⟩ := by
          unfold readStitch; rw [C58_low_bits _ hn]; rfl
        obtain ⟨st, hst, h3⟩ := h
        rcases List.mem_cons.1 hst with rfl | hst
        · exact absurd hn h3
        · rw [this, ih ⟨st, hst, h3⟩]; rfl
      · have : readStitch (s.x, s.y, decodedName s.cmd) = .error .keyError := by
          unfold readStitch; rw [C58_unnamed _ hn]; rfl
        rw [this]; rfl
  have h1 : ∀ ts : List Thread, ∃ r, (ts.map (fun t => (⟨hexColor t, t.description, t.catalog, t.details, t.brand, t.chart,
      t.weight⟩ : JThread))).mapM (readThread rnd) = .ok r := by
    intro ts
    induction ts with
    | nil => exact ⟨_, rfl⟩
    | cons t ts ih =>
      obtain ⟨r, ih⟩ := ih
      rw [List.map_cons, List.mapM_cons, ih]
      unfold readThread
      simp only [Csv.parse_hexColor]
      exact ⟨_, rfl⟩
  obtain ⟨r, hr⟩ := h1 p.threads
  unfold read write
  simp only [hr, h2 p.stitches h]
  rfl

example : (∀ st ∈ ([⟨1 / 2, -7, STITCH⟩, ⟨0, 0, 0x1041205⟩] : List Stitch), 0 ≤ st.cmd ∧ st.cmd < 2 ^ 32 ∧ st.cmd % 256 ∈ named) ∧
    read 0 (write ⟨[⟨1 / 2, -7, STITCH⟩, ⟨0, 0, 0x1041205⟩], [{ color := -1, chart := some "x" }],
      [("a".toList, .int 3), ("b".toList, .other 0)]⟩) =
    .ok ⟨[⟨1 / 2, -7, STITCH⟩, ⟨0, 0, 0x1041205⟩], [{ color := 0xFFFFFF, chart := some "x" }], [("a".toList, .int 3)]⟩ := by
  decide +kernel

end Json
end Emb
