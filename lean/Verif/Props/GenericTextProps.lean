import Verif.GenericText
import Verif.Props.GenericProps
import Verif.Props.BoundsProps

/-!
# C101: the texts of the generic writer are filled with the values of the design
-/

namespace Emb
namespace Generic

/-! ## Specification -/

/-- The fields have these values. -/
def Shows (d : Fields) (kvs : List (String × Value)) : Prop := ∀ p ∈ kvs, d p.1.toList = some p.2

/-- The names the writer uses itself. -/
def reserved : List Str :=
  (nameDict.map (fun p => p.2.toList.map Char.toLower ++ "_count".toList)) ++
  (["stitch_total", "thread_total", "extents_left", "extends_top", "extends_right", "extends_bottom", "extends_width",
    "extends_height", "extents_left_mm", "extends_top_mm", "extends_right_mm", "extends_bottom_mm", "extends_width_mm",
    "extends_height_mm", "metadata_index", "metadata_key", "metadata_value", "thread_index", "thread_color",
    "thread_description", "thread_brand", "thread_catalog_number", "thread_chart", "thread_details", "thread_weight",
    "thread_red", "thread_green", "thread_blue", "index", "command", "cmd_str", "cmd", "cmd_thread", "cmd_needle",
    "cmd_order", "x", "y", "z", "_x", "_y", "dx", "dy", "idx", "idy", "_idx", "_idy", "ix", "iy", "_ix", "_iy", "last_x",
    "last_y", "_last_x", "_last_y", "document_index", "document_index1", "color_index", "color_index1", "block_index",
    "block_index1"].map String.toList)

/-- What does not change within a file: for every command how often it occurs, how many commands and threads there are, the
bounding box in tenths of millimetres and in millimetres, and the entries of the metadata under names that are not used
otherwise. -/
structure Describes (doc : Doc) (d : Fields) : Prop where
  counts : ∀ c name, (c, name) ∈ nameDict →
    d (name.toList.map Char.toLower ++ "_count".toList) = some (.int (doc.stitches.countP (fun st => st.low = c)))
  totals : Shows d [("stitch_total", .int doc.stitches.length), ("thread_total", .int doc.threads.length)]
  extents : ∀ b, Tight doc.stitches b →
    Shows d [("extents_left", .num b.minX), ("extends_top", .num b.minY), ("extends_right", .num b.maxX),
      ("extends_bottom", .num b.maxY), ("extends_width", .num (b.maxX - b.minX)), ("extends_height", .num (b.maxY - b.minY)),
      ("extents_left_mm", .num (b.minX / 10)), ("extends_top_mm", .num (b.minY / 10)), ("extends_right_mm", .num (b.maxX / 10)),
      ("extends_bottom_mm", .num (b.maxY / 10)), ("extends_width_mm", .num ((b.maxX - b.minX) / 10)),
      ("extends_height_mm", .num ((b.maxY - b.minY) / 10))]
  metadata : ∀ p ∈ doc.extras, p.1 ∉ reserved → d p.1 = some (.text p.2)

/-- The text of the settings for a written text. -/
def form (F : Forms) : Tok → Option Form
  | .start l => (F.start l).map .plain
  | .stop l => (F.stop l).map .plain
  | .join .color => F.colorJoin.map .plain
  | .join .block => F.blockJoin.map .plain
  | .join _ => none
  | .metadata _ => F.metadataEntry.map .plain
  | .thread _ => F.threadEntry.map .plain
  | .segmentStart => F.segmentStart.map .plain
  | .segment _ c own _ => if own then F.own c else F.segment
  | .segmentJoin => F.segmentJoin.map .plain
  | .segmentEnd => F.segmentEnd.map .plain

/-- `t` is the format string: the text itself, or the entry of the table under the filled key, or else the default. -/
def Chosen (pr : Printer) (d : Fields) (t : Str) : Form → Prop
  | .plain s => t = s
  | .table key default table => ∃ k, fill pr d key = .ok k ∧
    ((k, t) ∈ table ∧ table.find? (fun p => p.1 = k) = some (k, t) ∨ (∀ p ∈ table, p.1 ≠ k) ∧ default = some t)

/-- The text is that of the settings for each of the tokens, filled in with the fields `d`; keys of tables are filled in with
the fields `d0`. -/
def Spells (pr : Printer) (F : Forms) (d0 d : Fields) : List Tok → Str → Prop
  | [], o => o = []
  | t :: r, o => ∃ f s a b, form F t = some f ∧ Chosen pr d0 s f ∧ fill pr d s = .ok a ∧ Spells pr F d0 d r b ∧ o = a ++ b

/-- What is written for one command. -/
structure Group where
  before : List Tok
  i : Nat
  cmd : Int
  own : Bool
  e : Env
  after : List Tok
  d : Fields
  out : Str

def Group.toks (g : Group) : List Tok := g.before ++ [.segment g.i g.cmd g.own g.e] ++ g.after

/-- Starts and joins stand before a segment. -/
def Opener : Tok → Prop
  | .start l => l ≠ .pattern
  | .join _ => True
  | .segmentStart => True
  | _ => False

/-- Ends stand behind it, and the text that joins segments. -/
def Closer : Tok → Prop
  | .stop l => l ≠ .pattern
  | .segmentJoin => True
  | .segmentEnd => True
  | _ => False

/-- The names of fields that say where the command is. -/
def movingKeys : List Str :=
  ["x", "y", "z", "_x", "_y", "dx", "dy", "idx", "idy", "_idx", "_idy", "ix", "iy", "_ix", "_iy", "last_x", "last_y", "_last_x",
   "_last_y", "document_index", "document_index1", "color_index", "color_index1", "block_index", "block_index1"].map String.toList

/-- All texts of a group are filled in with the number, the command, the positions and the indices of its segment. -/
structure Group.True (pr : Printer) (F : Forms) (doc : Doc) (g : Group) : Prop where
  stitch : ∃ st name, doc.stitches[g.i]? = some st ∧ g.cmd = st.low ∧ (st.low, name) ∈ nameDict ∧
    Shows g.d [("index", .int g.i), ("command", .int st.cmd), ("cmd_str", .text name.toList), ("cmd", .int st.low),
      ("cmd_thread", .ofInt? (decodeCommand st.cmd).2.1), ("cmd_needle", .ofInt? (decodeCommand st.cmd).2.2.1),
      ("cmd_order", .ofInt? (decodeCommand st.cmd).2.2.2)]
  before : ∀ t ∈ g.before, Opener t
  after : ∀ t ∈ g.after, Closer t
  positions : Shows g.d [("x", .num g.e.x), ("y", .num g.e.y), ("z", .num g.e.z), ("_x", .num (-g.e.x)), ("_y", .num (-g.e.y)),
    ("dx", .num g.e.dx), ("dy", .num g.e.dy), ("idx", .int g.e.idx), ("idy", .int g.e.idy), ("_idx", .int (-g.e.idx)),
    ("_idy", .int (-g.e.idy)), ("ix", .int g.e.ix), ("iy", .int g.e.iy), ("_ix", .int (-g.e.ix)), ("_iy", .int (-g.e.iy)),
    ("last_x", .num (g.e.x - g.e.dx)), ("last_y", .num (g.e.y - g.e.dy)), ("_last_x", .num (-(g.e.x - g.e.dx))),
    ("_last_y", .num (-(g.e.y - g.e.dy)))]
  indices : 0 ≤ g.e.documentIndex → Shows g.d [("document_index", .int g.e.documentIndex),
    ("document_index1", .int (g.e.documentIndex + 1)), ("color_index", .int g.e.colorIndex),
    ("color_index1", .int (g.e.colorIndex + 1)), ("block_index", .int g.e.blockIndex), ("block_index1", .int (g.e.blockIndex + 1))]
  design : Describes doc g.d
  spelled : ∃ d0, (∀ k, k ∉ movingKeys → d0 k = g.d k) ∧ Spells pr F d0 g.d g.toks g.out

/-- An entry of the metadata or a thread, with the fields it is filled in with. -/
structure Entry where
  d : Fields
  out : Str

/-- The fields of the entry with number `i`. -/
def MetadataEntry (pr : Printer) (doc : Doc) (t : Str) (i : Nat) (p : Str × Str) (e : Entry) : Prop :=
  fill pr e.d t = .ok e.out ∧ Describes doc e.d ∧
  Shows e.d [("metadata_index", .int i), ("metadata_key", .text p.1), ("metadata_value", .text p.2)]

def ThreadEntry (pr : Printer) (doc : Doc) (t : Str) (i : Nat) (p : Thread) (e : Entry) : Prop :=
  fill pr e.d t = .ok e.out ∧ Describes doc e.d ∧
  Shows e.d [("thread_index", .int i), ("thread_color", .text (hexColor p)), ("thread_description", .ofText? p.description),
    ("thread_brand", .ofText? p.brand), ("thread_catalog_number", .ofText? p.catalog), ("thread_chart", .ofText? p.chart),
    ("thread_details", .ofText? p.details), ("thread_weight", .ofText? p.weight), ("thread_red", .int p.red),
    ("thread_green", .int p.green), ("thread_blue", .int p.blue)]

/-- One entry for each element, in order; none if there is no text for them. -/
def Entries {α : Type} (t : Option Str) (l : List α) (ok : Str → Nat → α → Entry → Prop) (es : List Entry) : Prop :=
  match t with
  | none => es = []
  | some t => es.length = l.length ∧ ∀ i a e, l[i]? = some a → es[i]? = some e → ok t i a e

/-! ## Lemmas -/

theorem upd_other (d : Fields) (kvs : List (Str × Value)) (k : Str) (h : k ∉ kvs.map (·.1)) : upd d kvs k = d k := by
  unfold upd
  have : kvs.find? (fun p => p.1 = k) = none := by
    rw [List.find?_eq_none]
    intro p hp
    simp only [decide_eq_true_eq]
    rintro rfl
    exact h (List.mem_map.2 ⟨p, hp, rfl⟩)
  rw [this]

theorem upd_mem (d : Fields) (kvs : List (Str × Value)) (hn : (kvs.map (·.1)).Nodup) (p : Str × Value) (h : p ∈ kvs) :
    upd d kvs p.1 = some p.2 := by
  unfold upd
  induction kvs with
  | nil => cases h
  | cons q r ih =>
    rw [List.map_cons, List.nodup_cons] at hn
    rw [List.find?_cons]
    by_cases hq : q.1 = p.1
    · have : p = q := by
        rcases List.mem_cons.1 h with rfl | h
        · rfl
        · exact absurd (List.mem_map.2 ⟨p, h, hq.symm⟩) hn.1
      rw [this]
      simp
    · have : p ∈ r := by
        rcases List.mem_cons.1 h with rfl | h
        · exact absurd rfl hq
        · exact h
      rw [decide_eq_false hq]
      exact ih hn.2 this

def statKeys : List Str := ["stitch_total", "thread_total", "extents_left", "extends_top", "extends_right", "extends_bottom",
  "extends_width", "extends_height", "extents_left_mm", "extends_top_mm", "extends_right_mm", "extends_bottom_mm",
  "extends_width_mm", "extends_height_mm"].map String.toList
def countKeys : List Str := nameDict.map (fun p => countKey p.2)
def metadataKeys : List Str := ["metadata_index", "metadata_key", "metadata_value"].map String.toList
def threadKeys : List Str := ["thread_index", "thread_color", "thread_description", "thread_brand", "thread_catalog_number",
  "thread_chart", "thread_details", "thread_weight", "thread_red", "thread_green", "thread_blue"].map String.toList
def commandKeys : List Str := ["index", "command", "cmd_str", "cmd", "cmd_thread", "cmd_needle", "cmd_order"].map String.toList
def positionKeys : List Str := ["x", "y", "z", "_x", "_y", "dx", "dy", "idx", "idy", "_idx", "_idy", "ix", "iy", "_ix", "_iy",
  "last_x", "last_y", "_last_x", "_last_y"].map String.toList
def indexKeys : List Str := ["document_index", "document_index1", "color_index", "color_index1", "block_index", "block_index1"].map
  String.toList

theorem reserved_eq : reserved = countKeys ++ statKeys ++ metadataKeys ++ threadKeys ++ commandKeys ++ positionKeys ++ indexKeys := by
  decide +kernel

theorem reserved_nodup : reserved.Nodup := by decide +kernel

theorem keys_extent (b : Option Box) (m n : Int) : ([("stitch_total".toList, Value.int m), ("thread_total".toList, .int n)] ++
    extentFields b).map (·.1) = statKeys := by
  cases b <;> rfl

theorem keys_count (f : Int → Value) : (nameDict.map (fun p => (countKey p.2, f p.1))).map (·.1) = countKeys := by
  rw [List.map_map]; rfl

theorem keys_metadata (i : Nat) (p : Str × Str) : (metadataFields i p).map (·.1) = metadataKeys := rfl
theorem keys_thread (i : Nat) (t : Thread) : (threadFields i t).map (·.1) = threadKeys := rfl
theorem keys_command (i : Nat) (st : Stitch) (n : String) : (commandFields i st n).map (·.1) = commandKeys := rfl
theorem keys_position (st : Stitch) (s : St) : (positionFields st s).map (·.1) = positionKeys := rfl
theorem keys_index (s : St) : (indexFields s).map (·.1) = indexKeys := rfl

def laterKeys : List Str := metadataKeys ++ threadKeys ++ commandKeys ++ positionKeys ++ indexKeys

theorem later_reserved : ∀ k ∈ laterKeys, k ∈ reserved := by decide +kernel

theorem later_fixed : ∀ k ∈ countKeys ++ statKeys, k ∉ laterKeys := by decide +kernel

theorem count_stat : ∀ k ∈ countKeys, k ∉ statKeys := by decide +kernel
theorem nodup_stat : statKeys.Nodup := by decide +kernel
theorem nodup_count : countKeys.Nodup := by decide +kernel
theorem nodup_metadata : metadataKeys.Nodup := by decide +kernel
theorem nodup_thread : threadKeys.Nodup := by decide +kernel
theorem nodup_command : commandKeys.Nodup := by decide +kernel
theorem nodup_position : positionKeys.Nodup := by decide +kernel
theorem nodup_index : indexKeys.Nodup := by decide +kernel
theorem command_moving : ∀ k ∈ commandKeys, k ∉ positionKeys ∧ k ∉ indexKeys := by decide +kernel
theorem position_index : ∀ k ∈ positionKeys, k ∉ indexKeys := by decide +kernel
theorem moving_eq : movingKeys = positionKeys ++ indexKeys := by decide +kernel

theorem describes_upd {doc : Doc} {d : Fields} (h : Describes doc d) (kvs : List (Str × Value))
    (hk : ∀ k ∈ kvs.map (·.1), k ∈ laterKeys) : Describes doc (upd d kvs) := by
  have fixed : ∀ k ∈ countKeys ++ statKeys, upd d kvs k = d k := fun k h => upd_other d kvs k (fun hc => later_fixed k h (hk k hc))
  have stats : ∀ k ∈ statKeys, upd d kvs k = d k := fun k h => fixed k (by simp [h])
  refine ⟨?_, ?_, ?_, ?_⟩
  · intro c name hc
    rw [fixed _ (by simp only [List.mem_append]; left; exact List.mem_map.2 ⟨_, hc, rfl⟩)]
    exact h.counts c name hc
  · intro p hp
    rw [stats]
    · exact h.totals p hp
    · have : ∀ k ∈ ["stitch_total", "thread_total"].map String.toList, k ∈ statKeys := by decide +kernel
      exact this _ (by simp only [List.mem_cons, List.not_mem_nil, or_false] at hp; rcases hp with rfl | rfl <;> simp)
  · intro b hb p hp
    rw [stats]
    · exact h.extents b hb p hp
    · have : statKeys = (("stitch_total".toList :: "thread_total".toList :: (extentFields (some b)).map (·.1))) := rfl
      rw [this]
      refine List.mem_cons_of_mem _ (List.mem_cons_of_mem _ ?_)
      have e : (extentFields (some b)).map (·.1) = ([("extents_left", .num b.minX), ("extends_top", .num b.minY), ("extends_right", .num b.maxX),
        ("extends_bottom", .num b.maxY), ("extends_width", .num (b.maxX - b.minX)), ("extends_height", .num (b.maxY - b.minY)),
        ("extents_left_mm", .num (b.minX / 10)), ("extends_top_mm", .num (b.minY / 10)), ("extends_right_mm", .num (b.maxX / 10)),
        ("extends_bottom_mm", .num (b.maxY / 10)), ("extends_width_mm", .num ((b.maxX - b.minX) / 10)),
        ("extends_height_mm", .num ((b.maxY - b.minY) / 10))] : List (String × Value)).map (·.1.toList) := rfl
      rw [e]
      exact List.mem_map.2 ⟨p, hp, rfl⟩
  · intro p hp hr
    rw [upd_other _ _ _ (fun hc => hr (later_reserved _ (hk _ hc)))]
    exact h.metadata p hp hr

theorem countGet_up (l : List (Int × Int)) (x c : Int) : countGet (countUp l x) c = countGet l c + if x = c then 1 else 0 := by
  induction l with
  | nil =>
    by_cases h : x = c <;> simp [countUp, countGet, h]
  | cons p r ih =>
    unfold countUp
    by_cases hp : p.1 = x
    · rw [if_pos hp]
      by_cases h : x = c
      · simp [countGet, h, hp]
      · have hc : ¬ p.1 = c := by rw [hp]; exact h
        simp [countGet, h, hc]
    · rw [if_neg hp]
      by_cases hc : p.1 = c
      · have h : ¬ x = c := by rintro rfl; exact hp hc
        simp [countGet, hc, h]
      · simp only [countGet, List.find?_cons, decide_eq_false hc] at ih ⊢
        exact ih

theorem countGet_fold (l : List Int) (acc : List (Int × Int)) (c : Int) :
    countGet (l.foldl countUp acc) c = countGet acc c + (l.countP (fun x => x = c) : Nat) := by
  induction l generalizing acc with
  | nil => simp
  | cons x r ih =>
    rw [List.foldl_cons, ih, countGet_up, List.countP_cons]
    by_cases h : x = c <;> simp [h] <;> omega

theorem describes_statistics (doc : Doc) (hn : (doc.extras.map (·.1)).Nodup) : Describes doc (statistics doc) := by
  have hs : ∀ d kvs, kvs.map (·.1) = statKeys → ∀ p ∈ kvs, upd d kvs p.1 = some p.2 := fun d kvs h p hp =>
    upd_mem d kvs (by rw [h]; exact nodup_stat) p hp
  refine ⟨?_, ?_, ?_, ?_⟩
  · intro c name hc
    have hk : countKey name ∈ countKeys := List.mem_map.2 ⟨_, hc, rfl⟩
    unfold statistics
    show upd _ _ (countKey name) = _
    rw [upd_other _ _ _ (by rw [keys_extent]; exact count_stat _ hk)]
    have := upd_mem (upd (fun _ => none) (doc.extras.map (fun p => (p.1, .text p.2))))
      (nameDict.map (fun p => (countKey p.2, .int (countGet ((doc.stitches.map (fun st => cmdOf st.cmd)).foldl countUp []) p.1))))
      (by rw [keys_count (fun c => .int (countGet ((doc.stitches.map (fun st => cmdOf st.cmd)).foldl countUp []) c))]; exact nodup_count)
      (countKey name, .int (countGet ((doc.stitches.map (fun st => cmdOf st.cmd)).foldl countUp []) c))
      (List.mem_map.2 ⟨_, hc, rfl⟩)
    rw [this, countGet_fold, List.countP_map]
    show some (Value.int (0 + _)) = _
    rw [zero_add]
    rfl
  · intro p hp
    unfold statistics
    exact hs _ _ (keys_extent _ _ _) (p.1.toList, p.2) (by
      simp only [List.mem_cons, List.not_mem_nil, or_false] at hp
      rcases hp with rfl | rfl <;> simp)
  · intro b hb p hp
    have e : bounds doc.stitches = some b := by
      have hl : doc.stitches ≠ [] := by
        obtain ⟨-, ⟨a, ha, -⟩, -⟩ := hb
        exact List.ne_nil_of_mem ha
      obtain ⟨b', h', t'⟩ := C43_tight _ hl
      rw [h', tight_unique _ _ _ t' hb]
    unfold statistics
    rw [e]
    refine hs _ _ (keys_extent _ _ _) (p.1.toList, p.2) (List.mem_append_right _ ?_)
    have e : extentFields (some b) = ([("extents_left", .num b.minX), ("extends_top", .num b.minY), ("extends_right", .num b.maxX),
        ("extends_bottom", .num b.maxY), ("extends_width", .num (b.maxX - b.minX)), ("extends_height", .num (b.maxY - b.minY)),
        ("extents_left_mm", .num (b.minX / 10)), ("extends_top_mm", .num (b.minY / 10)), ("extends_right_mm", .num (b.maxX / 10)),
        ("extends_bottom_mm", .num (b.maxY / 10)), ("extends_width_mm", .num ((b.maxX - b.minX) / 10)),
        ("extends_height_mm", .num ((b.maxY - b.minY) / 10))] : List (String × Value)).map (fun p => (p.1.toList, p.2)) := rfl
    rw [e]
    exact List.mem_map.2 ⟨p, hp, rfl⟩
  · intro p hp hr
    unfold statistics
    rw [reserved_eq] at hr
    simp only [List.mem_append, not_or] at hr
    rw [upd_other _ _ _ (by rw [keys_extent]; exact hr.1.1.1.1.1.2),
      upd_other _ _ _ (by
        rw [keys_count (fun c => .int (countGet ((doc.stitches.map (fun st => cmdOf st.cmd)).foldl countUp []) c))]; exact hr.1.1.1.1.1.1)]
    exact upd_mem _ _ (by rw [List.map_map]; exact hn) (p.1, .text p.2) (List.mem_map.2 ⟨p, hp, rfl⟩)

/-! ### What is written -/

theorem bind_ok {α β : Type} {a : Except PyErr α} {f : α → Except PyErr β} {o : β} (h : a >>= f = .ok o) :
    ∃ x, a = .ok x ∧ f x = .ok o := by
  cases a with
  | error e => cases h
  | ok x => exact ⟨x, rfl, h⟩

theorem map_ok {α β : Type} {a : Except PyErr α} {f : α → β} {o : β} (h : a.map f = .ok o) : ∃ x, a = .ok x ∧ o = f x := by
  cases a with
  | error e => cases h
  | ok x => exact ⟨x, rfl, by injection h with h; exact h.symm⟩

theorem andThen_ok {a b : Except PyErr Str} {o : Str} (h : andThen a b = .ok o) : ∃ x y, a = .ok x ∧ b = .ok y ∧ o = x ++ y := by
  obtain ⟨x, hx, h⟩ := bind_ok h
  obtain ⟨y, hy, rfl⟩ := map_ok h
  exact ⟨x, y, hx, hy, rfl⟩

theorem spells_append {pr : Printer} {F : Forms} {d0 d : Fields} {a b : List Tok} {x y : Str} (ha : Spells pr F d0 d a x)
    (hb : Spells pr F d0 d b y) : Spells pr F d0 d (a ++ b) (x ++ y) := by
  induction a generalizing x with
  | nil => obtain rfl : x = [] := ha; exact hb
  | cons t r ih =>
    obtain ⟨f, s, u, v, h1, h2, h3, h4, rfl⟩ := ha
    exact ⟨f, s, u, v ++ y, h1, h2, h3, ih h4, by rw [List.append_assoc]⟩

theorem spells_put {pr : Printer} {F : Forms} {d0 d : Fields} {t : Option Str} {tok : Tok} {o : Str} (h : put? pr d t = .ok o)
    (hf : form F tok = t.map .plain) : Spells pr F d0 d (text t.isSome tok) o := by
  cases t with
  | none => obtain rfl : [] = o := by injection h
            rfl
  | some t => exact ⟨.plain t, t, o, [], hf, rfl, h, rfl, by simp⟩

theorem spells_when {pr : Printer} {F : Forms} {d0 d : Fields} {c : Prop} [Decidable c] {a : Except PyErr Str} {toks : List Tok} {o : Str}
    (h : (if c then a else .ok []) = .ok o) (hs : a = .ok o → Spells pr F d0 d toks o) : Spells pr F d0 d (if c then toks else []) o := by
  by_cases hc : c
  · rw [if_pos hc] at h ⊢; exact hs h
  · rw [if_neg hc] at h ⊢
    obtain rfl : [] = o := by injection h
    rfl

theorem spells_opens {pr : Printer} {F : Forms} {d0 d : Fields} {s : St} {o : Str} (h : opensText pr F s d = .ok o) :
    Spells pr F d0 d (writeOpens F.texts s).1 o := by
  obtain ⟨x, yz, hx, hyz, rfl⟩ := andThen_ok h
  obtain ⟨y, z, hy, hz, rfl⟩ := andThen_ok hyz
  have join : ∀ (i : Int) (t : Option Str) (tok : Tok) (o : Str), (if i ≠ 0 then put? pr d t else .ok []) = .ok o →
      form F tok = t.map .plain → Spells pr F d0 d (if t.isSome = true ∧ i ≠ 0 then [tok] else []) o := by
    intro i t tok o h hf
    by_cases hi : i ≠ 0
    · rw [if_pos hi] at h
      have := spells_put (d0 := d0) h hf
      unfold text at this
      simpa [hi] using this
    · rw [if_neg hi] at h
      rw [if_neg (fun c => hi c.2)]
      obtain rfl : [] = o := by injection h
      rfl
  unfold writeOpens
  dsimp only
  rw [List.append_assoc]
  refine spells_append (spells_when hx (fun h => spells_put h rfl)) (spells_append (spells_when hy ?_) (spells_when hz ?_))
  · intro h
    obtain ⟨u, v, hu, hv, rfl⟩ := andThen_ok h
    exact spells_append (join _ _ _ _ hu rfl) (spells_put hv rfl)
  · intro h
    obtain ⟨u, v, hu, hv, rfl⟩ := andThen_ok h
    exact spells_append (join _ _ _ _ hu rfl) (spells_put hv rfl)

theorem spells_closes {pr : Printer} {F : Forms} {d0 d : Fields} {s : St} {o : Str} (h : closesText pr F s d = .ok o) :
    Spells pr F d0 d (writeCloses F.texts s).1 o := by
  obtain ⟨x, yz, hx, hyz, rfl⟩ := andThen_ok h
  obtain ⟨y, z, hy, hz, rfl⟩ := andThen_ok hyz
  unfold writeCloses
  dsimp only
  rw [List.append_assoc]
  exact spells_append (spells_when hx (fun h => spells_put h rfl))
    (spells_append (spells_when hy (fun h => spells_put h rfl)) (spells_when hz (fun h => spells_put h rfl)))

theorem opener_opens (T : Texts) (s : St) : ∀ t ∈ (writeOpens T s).1, Opener t := by
  intro t ht
  unfold writeOpens text at ht
  simp only [List.mem_append] at ht
  rcases ht with (ht | ht) | ht <;> (split_ifs at ht <;> simp at ht <;> (try rcases ht with rfl | rfl) <;> simp_all [Opener])

theorem closer_closes (T : Texts) (s : St) : ∀ t ∈ (writeCloses T s).1, Closer t := by
  intro t ht
  unfold writeCloses text at ht
  simp only [List.mem_append] at ht
  rcases ht with (ht | ht) | ht <;> (split_ifs at ht <;> simp at ht <;> subst ht <;> simp [Closer])

theorem opensD_state (cmd : Int) (p : St × Fields) : (opensD cmd p).1 = opens cmd p.1 := by
  have hd : ∀ p, (openDocumentD p).1 = openDocument p.1 := by
    intro p; unfold openDocumentD openDocument; split_ifs <;> rfl
  have hc : ∀ p, (openColorD p).1 = openColor p.1 := by
    intro p; unfold openColorD openColor; split_ifs <;> rfl
  have hb : ∀ p, (openBlockD p).1 = openBlock p.1 := by
    intro p; unfold openBlockD openBlock; split_ifs <;> rfl
  unfold opensD opens
  split_ifs <;> simp only [hd, hc, hb]

/-- The fields of the indices, if there was a document. -/
def Indexed (p : St × Fields) : Prop := 0 ≤ p.1.documentIndex → ∀ kv ∈ indexFields p.1, p.2 kv.1 = some kv.2

theorem indexed_opens (cmd : Int) (p : St × Fields) (h : Indexed p) : Indexed (opensD cmd p) := by
  have new : ∀ s d, Indexed (s, upd d (indexFields s)) := fun s d _ kv hkv => upd_mem d _ (by rw [keys_index]; exact nodup_index) kv hkv
  have hd : ∀ p, Indexed p → Indexed (openDocumentD p) := by
    intro p h; unfold openDocumentD; split_ifs; exacts [h, new _ _]
  have hc : ∀ p, Indexed p → Indexed (openColorD p) := by
    intro p h; unfold openColorD; split_ifs; exacts [h, new _ _]
  have hb : ∀ p, Indexed p → Indexed (openBlockD p) := by
    intro p h; unfold openBlockD; split_ifs; exacts [h, new _ _]
  unfold opensD
  split_ifs
  exacts [hc _ (hd _ h), hd _ h, hb _ (hc _ (hd _ h)), h]

theorem opens_other (cmd : Int) (p : St × Fields) (k : Str) (hk : k ∉ indexKeys) : (opensD cmd p).2 k = p.2 k := by
  have new : ∀ s d, upd d (indexFields s) k = d k := fun s d => upd_other d _ k (by rw [keys_index]; exact hk)
  have hd : ∀ p, (openDocumentD p).2 k = p.2 k := by
    intro p; unfold openDocumentD; split_ifs; exacts [rfl, new _ _]
  have hc : ∀ p, (openColorD p).2 k = p.2 k := by
    intro p; unfold openColorD; split_ifs; exacts [rfl, new _ _]
  have hb : ∀ p, (openBlockD p).2 k = p.2 k := by
    intro p; unfold openBlockD; split_ifs; exacts [rfl, new _ _]
  unfold opensD
  split_ifs <;> simp only [hd, hc, hb]

theorem describes_opens {doc : Doc} (cmd : Int) (p : St × Fields) (h : Describes doc p.2) : Describes doc (opensD cmd p).2 := by
  have new : ∀ s d, Describes doc d → Describes doc (upd d (indexFields s)) := fun s d h =>
    describes_upd h _ (by rw [keys_index]; intro k hk; simp [laterKeys, hk])
  have hd : ∀ p, Describes doc p.2 → Describes doc (openDocumentD p).2 := by
    intro p h; unfold openDocumentD; split_ifs; exacts [h, new _ _ h]
  have hc : ∀ p, Describes doc p.2 → Describes doc (openColorD p).2 := by
    intro p h; unfold openColorD; split_ifs; exacts [h, new _ _ h]
  have hb : ∀ p, Describes doc p.2 → Describes doc (openBlockD p).2 := by
    intro p h; unfold openBlockD; split_ifs; exacts [h, new _ _ h]
  unfold opensD
  split_ifs
  exacts [hc _ (hd _ h), hd _ h, hb _ (hc _ (hd _ h)), h]

theorem chosen_of {pr : Printer} {d : Fields} {f : Form} {t : Str} (h : choose pr d f = .ok t) : Chosen pr d t f := by
  cases f with
  | plain s => injection h with h; exact h.symm
  | table key default table =>
    obtain ⟨k, hk, h⟩ := bind_ok h
    refine ⟨k, hk, ?_⟩
    cases hf : table.find? (fun p => p.1 = k) with
    | some p =>
      rw [hf] at h
      injection h with h
      subst h
      have h1 := List.find?_some hf
      simp only [decide_eq_true_eq] at h1
      obtain ⟨p1, p2⟩ := p
      dsimp only at h1
      subst h1
      exact .inl ⟨List.mem_of_find?_eq_some hf, rfl⟩
    | none =>
      rw [hf] at h
      refine .inr ⟨?_, ?_⟩
      · intro p hp
        have := List.find?_eq_none.1 hf p hp
        simpa using this
      · cases default with
        | none => cases h
        | some t' => injection h with h; rw [h]

theorem getForm_none (F : Forms) (cmd : Int) (h : getForm F cmd = none) : getWriteSegment F.texts cmd = none := by
  unfold getForm at h
  unfold getWriteSegment
  by_cases hc : cmd ∈ owned ∧ (F.own cmd).isSome = true
  · rw [if_pos hc] at h
    rw [h] at hc
    simp at hc
  · rw [if_neg hc] at h
    have hc' : ¬ (cmd ∈ owned ∧ F.texts.own cmd = true) := hc
    rw [if_neg hc', if_neg]
    show ¬ F.segment.isSome = true
    rw [h]
    simp

theorem getForm_some (F : Forms) (cmd : Int) (f : Form) (h : getForm F cmd = some f) : ∃ own, getWriteSegment F.texts cmd = some own ∧
    ∀ i e, form F (.segment i cmd own e) = some f := by
  unfold getForm at h
  unfold getWriteSegment
  by_cases hc : cmd ∈ owned ∧ (F.own cmd).isSome = true
  · rw [if_pos hc] at h
    exact ⟨true, if_pos hc, fun _ _ => h⟩
  · rw [if_neg hc] at h
    refine ⟨false, ?_, fun _ _ => h⟩
    have hc' : ¬ (cmd ∈ owned ∧ F.texts.own cmd = true) := hc
    rw [if_neg hc', if_pos]
    show F.segment.isSome = true
    rw [h]
    rfl

theorem closes_indices (T : Texts) (cmd : Int) (s : St) :
    let s' := (writeCloses T (closes cmd (writeOpens T s).2)).2
    s'.documentIndex = s.documentIndex ∧ s'.colorIndex = s.colorIndex ∧ s'.blockIndex = s.blockIndex := by
  have hb : ∀ s, (closeBlock s).documentIndex = s.documentIndex ∧ (closeBlock s).colorIndex = s.colorIndex ∧ (closeBlock s).blockIndex = s.blockIndex := by
    intro s; unfold closeBlock; split_ifs <;> exact ⟨rfl, rfl, rfl⟩
  have hc : ∀ s, (closeColor s).documentIndex = s.documentIndex ∧ (closeColor s).colorIndex = s.colorIndex ∧ (closeColor s).blockIndex = s.blockIndex := by
    intro s; unfold closeColor; split_ifs <;> exact ⟨rfl, rfl, rfl⟩
  have hd : ∀ s, (closeDocument s).documentIndex = s.documentIndex ∧ (closeDocument s).colorIndex = s.colorIndex ∧ (closeDocument s).blockIndex = s.blockIndex := by
    intro s; unfold closeDocument; split_ifs <;> exact ⟨rfl, rfl, rfl⟩
  unfold closes writeCloses writeOpens
  dsimp only
  split_ifs <;> simp only [hb, hc, hd, and_self]

theorem lookup_mem {α β : Type} [DecidableEq α] {d : List (α × β)} {k : α} {v : β} (h : lookup d k = .ok v) : (k, v) ∈ d := by
  unfold lookup at h
  split at h
  · rename_i p hp
    injection h with h
    have h1 := List.find?_some hp
    simp only [decide_eq_true_eq] at h1
    have := List.mem_of_find?_eq_some hp
    obtain ⟨a, b⟩ := p
    dsimp only at h h1
    rw [← h, ← h1]
    exact this
  · cases h

theorem shows_of {d : Fields} {kvs : List (String × Value)} (h : ∀ p ∈ kvs.map (fun p => (p.1.toList, p.2)), d p.1 = some p.2) :
    Shows d kvs := fun p hp => h (p.1.toList, p.2) (List.mem_map.2 ⟨p, hp, rfl⟩)

/-- What is kept from command to command. -/
structure Kept (doc : Doc) (p : St × Fields) : Prop where
  design : Describes doc p.2
  indexed : Indexed p

theorem step_text {pr : Printer} {F : Forms} {doc : Doc} {i : Nat} {st : Stitch} {p : St × Fields} (hp : Kept doc p)
    (hi : doc.stitches[i]? = some st) {r : Str × St × Fields} (h : stepText pr F i st p = .ok r) :
    ∃ toks, step F.texts i st p.1 = .ok (toks, r.2.1) ∧ Kept doc r.2 ∧
      (toks = [] ∧ r.1 = [] ∨ ∃ g : Group, toks = g.toks ∧ r.1 = g.out ∧ g.True pr F doc) := by
  unfold stepText at h
  obtain ⟨name, hname, h⟩ := bind_ok h
  dsimp only at h
  have hdes : Describes doc (upd p.2 (commandFields i st name)) :=
    describes_upd hp.design _ (by rw [keys_command]; intro k hk; simp [laterKeys, hk])
  have hind : Indexed (p.1, upd p.2 (commandFields i st name)) := by
    intro h0 kv hkv
    dsimp only
    rw [upd_other]
    · exact hp.indexed h0 kv hkv
    · rw [keys_command]
      intro hc
      exact (command_moving _ hc).2 (by rw [← keys_index p.1]; exact List.mem_map.2 ⟨kv, hkv, rfl⟩)
  unfold step
  dsimp only
  rw [hname]
  dsimp only [bind, Except.bind]
  cases hf : getForm F (decodeCommand st.cmd).1 with
  | none =>
    rw [hf] at h
    obtain rfl : ([], p.1, upd p.2 (commandFields i st name)) = r := by injection h
    rw [getForm_none F _ hf]
    exact ⟨[], rfl, ⟨hdes, hind⟩, .inl ⟨rfl, rfl⟩⟩
  | some f =>
    rw [hf] at h
    obtain ⟨t, ht, h⟩ := bind_ok h
    obtain ⟨out, hout, rfl⟩ := map_ok h
    obtain ⟨own, hown, hform⟩ := getForm_some F _ f hf
    rw [hown]
    dsimp only
    obtain ⟨oa, obc, ha, hbc, rfl⟩ := andThen_ok hout
    obtain ⟨ob, oc, hb, hc, rfl⟩ := andThen_ok hbc
    obtain ⟨o1, o', h1, h', rfl⟩ := andThen_ok hb
    obtain ⟨o2, o'', h2, h'', rfl⟩ := andThen_ok h'
    obtain ⟨o3, o4, h3, h4, rfl⟩ := andThen_ok h''
    have hq : (opensD (decodeCommand st.cmd).1 ((updatePositions F.texts st.x st.y (decodeCommand st.cmd).1 p.1).2,
        upd (upd p.2 (commandFields i st name)) (positionFields st p.1))).1 =
        opens (decodeCommand st.cmd).1 (updatePositions F.texts st.x st.y (decodeCommand st.cmd).1 p.1).2 := opensD_state _ _
    have hidx : Indexed (opensD (decodeCommand st.cmd).1 ((updatePositions F.texts st.x st.y (decodeCommand st.cmd).1 p.1).2,
        upd (upd p.2 (commandFields i st name)) (positionFields st p.1))) := by
      refine indexed_opens _ _ ?_
      intro h0 kv hkv
      dsimp only
      rw [upd_other]
      · exact hind h0 kv hkv
      · rw [keys_position]
        intro hc
        exact position_index _ hc (by rw [← keys_index p.1]; exact List.mem_map.2 ⟨kv, hkv, rfl⟩)
    have hdes' : Describes doc (opensD (decodeCommand st.cmd).1 ((updatePositions F.texts st.x st.y (decodeCommand st.cmd).1 p.1).2,
        upd (upd p.2 (commandFields i st name)) (positionFields st p.1))).2 :=
      describes_opens _ _ (describes_upd hdes _ (by rw [keys_position]; intro k hk; simp [laterKeys, hk]))
    have hoth : ∀ k, k ∉ indexKeys → (opensD (decodeCommand st.cmd).1 ((updatePositions F.texts st.x st.y (decodeCommand st.cmd).1 p.1).2,
        upd (upd p.2 (commandFields i st name)) (positionFields st p.1))).2 k =
        upd (upd p.2 (commandFields i st name)) (positionFields st p.1) k := fun k hk => opens_other _ _ k hk
    generalize opensD (decodeCommand st.cmd).1 ((updatePositions F.texts st.x st.y (decodeCommand st.cmd).1 p.1).2,
        upd (upd p.2 (commandFields i st name)) (positionFields st p.1)) = q at *
    obtain ⟨qs, qd⟩ := q
    dsimp only at *
    subst hq
    generalize hqs : opens (decodeCommand st.cmd).1 (updatePositions F.texts st.x st.y (decodeCommand st.cmd).1 p.1).2 = qs at *
    refine ⟨_, rfl, ⟨hdes', ?_⟩, .inr ⟨⟨(writeOpens F.texts qs).1 ++ text F.texts.segmentStart .segmentStart, i, (decodeCommand st.cmd).1, own,
      (updatePositions F.texts st.x st.y (decodeCommand st.cmd).1 p.1).1 (writeOpens F.texts qs).2,
      text F.texts.segmentJoin .segmentJoin ++ text F.texts.segmentEnd .segmentEnd ++
        (writeCloses F.texts (closes (decodeCommand st.cmd).1 (writeOpens F.texts qs).2)).1, qd, _⟩, ?_, rfl, ?_⟩⟩
    · intro h0 kv hkv
      obtain ⟨e1, e2, e3⟩ := closes_indices F.texts (decodeCommand st.cmd).1 qs
      have e : indexFields (writeCloses F.texts (closes (decodeCommand st.cmd).1 (writeOpens F.texts qs).2)).2 = indexFields qs := by
        unfold indexFields
        rw [e1, e2, e3]
      dsimp only at h0 hkv ⊢
      rw [e] at hkv
      rw [e1] at h0
      exact hidx h0 kv hkv
    · simp only [Group.toks, writeSegment, List.append_assoc]
    · refine ⟨⟨st, name, hi, rfl, lookup_mem hname, shows_of ?_⟩, ?_, ?_, shows_of ?_, ?_, hdes', ?_⟩
      · intro kv hkv
        have hkv : kv ∈ commandFields i st name := hkv
        have hk : kv.1 ∈ commandKeys := by rw [← keys_command i st name]; exact List.mem_map.2 ⟨kv, hkv, rfl⟩
        have := command_moving _ hk
        dsimp only
        rw [hoth _ this.2, upd_other _ _ _ (by rw [keys_position]; exact this.1)]
        exact upd_mem _ (commandFields i st name) (by rw [keys_command]; exact nodup_command) kv hkv
      · intro t ht
        rcases List.mem_append.1 ht with ht | ht
        · exact opener_opens _ _ t ht
        · unfold text at ht
          split_ifs at ht
          · rw [List.mem_singleton.1 ht]; trivial
          · cases ht
      · intro t ht
        rcases List.mem_append.1 ht with ht | ht
        · unfold text at ht
          rcases List.mem_append.1 ht with ht | ht
          all_goals
            split_ifs at ht
            · rw [List.mem_singleton.1 ht]; trivial
            · cases ht
        · exact closer_closes _ _ t ht
      · intro kv hkv
        have hkv' : kv ∈ positionFields st p.1 := by
          have ex : st.x - (st.x - p.1.lastX) = p.1.lastX := by ring
          have ey : st.y - (st.y - p.1.lastY) = p.1.lastY := by ring
          simp only [updatePositions, ex, ey] at hkv
          exact hkv
        have hk : kv.1 ∈ positionKeys := by rw [← keys_position st p.1]; exact List.mem_map.2 ⟨kv, hkv', rfl⟩
        dsimp only
        rw [hoth _ (position_index _ hk)]
        exact upd_mem _ (positionFields st p.1) (by rw [keys_position]; exact nodup_position) kv hkv'
      · intro h0
        exact shows_of (fun kv hkv => hidx h0 kv hkv)
      · refine ⟨upd p.2 (commandFields i st name), ?_, ?_⟩
        · intro k hk
          rw [moving_eq, List.mem_append, not_or] at hk
          dsimp only
          rw [hoth k hk.2]
          exact (upd_other (upd p.2 (commandFields i st name)) _ k (by rw [keys_position]; exact hk.1)).symm
        · have e : oa ++ (o1 ++ (o2 ++ (o3 ++ o4)) ++ oc) = (oa ++ o1) ++ (o2 ++ []) ++ (o3 ++ o4 ++ oc) := by simp
          dsimp only
          rw [e]
          refine spells_append (spells_append (spells_append (spells_opens ha) (spells_put h1 rfl)) ?_)
            (spells_append (spells_append (spells_put h3 rfl) (spells_put h4 rfl)) (spells_closes hc))
          exact ⟨f, t, o2, [], hform _ _, chosen_of ht, h2, rfl, rfl⟩

theorem run_text {pr : Printer} {F : Forms} {doc : Doc} : ∀ (l pre : List Stitch) (p : St × Fields), Kept doc p → doc.stitches = pre ++ l →
    ∀ r, runText pr F pre.length l p = .ok r → ∃ (gs : List Group) (s : St), run F.texts pre.length l p.1 = .ok (gs.flatMap Group.toks, s) ∧
      r.1 = gs.flatMap (·.out) ∧ (∀ g ∈ gs, g.True pr F doc) ∧ Describes doc r.2
  | [], _, p, hp, _, r, h => by
    obtain rfl : ([], p.2) = r := by injection h
    exact ⟨[], p.1, rfl, rfl, by simp, hp.design⟩
  | st :: l, pre, p, hp, hl, r, h => by
    obtain ⟨a, ha, h⟩ := bind_ok h
    obtain ⟨b, hb, rfl⟩ := map_ok h
    obtain ⟨toks, h1, h2, h3⟩ := step_text hp (by rw [hl, List.getElem?_append_right (le_refl _)]; simp) ha
    have e : pre.length + 1 = (pre ++ [st]).length := by simp
    rw [e] at hb
    obtain ⟨gs, s, g1, g2, g3, g4⟩ := run_text l (pre ++ [st]) a.2 h2 (by simp [hl]) b hb
    rw [← e] at g1
    rcases h3 with ⟨rfl, h3⟩ | ⟨g, rfl, h3, hg⟩
    · refine ⟨gs, s, ?_, ?_, g3, g4⟩
      · exact (run_cons _ _ _ _ _ _).2 ⟨_, _, h1, g1, rfl⟩
      · rw [h3, g2]; rfl
    · refine ⟨g :: gs, s, ?_, ?_, ?_, g4⟩
      · exact (run_cons _ _ _ _ _ _).2 ⟨_, _, h1, g1, rfl⟩
      · rw [h3, g2]; rfl
      · intro g' hg'
        rcases List.mem_cons.1 hg' with rfl | hg'
        · exact hg
        · exact g3 g' hg'

theorem entries_text {α : Type} {pr : Printer} {t : Str} {fields : Nat → α → List (Str × Value)} {doc : Doc}
    (hk : ∀ i a, ∀ k ∈ (fields i a).map (·.1), k ∈ laterKeys) :
    ∀ (l : List α) (i : Nat) (d : Fields), Describes doc d → ∀ r, entries pr t fields i l d = .ok r →
    ∃ es : List Entry, r.1 = es.flatMap (·.out) ∧ es.length = l.length ∧ Describes doc r.2 ∧
      ∀ j a e, l[j]? = some a → es[j]? = some e → fill pr e.d t = .ok e.out ∧ Describes doc e.d ∧
        ∃ d', e.d = upd d' (fields (i + j) a)
  | [], _, d, hd, r, h => by
    obtain rfl : ([], d) = r := by injection h
    exact ⟨[], rfl, rfl, hd, by simp⟩
  | a :: l, i, d, hd, r, h => by
    obtain ⟨s, hs, h⟩ := bind_ok h
    obtain ⟨b, hb, rfl⟩ := map_ok h
    have hd' := describes_upd hd (fields i a) (hk i a)
    obtain ⟨es, e1, e2, e3, e4⟩ := entries_text hk l (i + 1) _ hd' b hb
    refine ⟨⟨upd d (fields i a), s⟩ :: es, by simp [e1], by simp [e2], e3, ?_⟩
    intro j a' e ha' he
    cases j with
    | zero =>
      simp only [List.getElem?_cons_zero, Option.some.injEq] at ha' he
      subst ha' he
      exact ⟨hs, hd', d, rfl⟩
    | succ j =>
      simp only [List.getElem?_cons_succ] at ha' he
      have := e4 j a' e ha' he
      rw [show i + (j + 1) = i + 1 + j by omega]
      exact this

/-! ## Theorems -/

/-- **C101**: the file consists of the texts of C61 and C72, in that order, each filled in with the values of the design: the
start and the end of the pattern with its statistics; an entry of the metadata or of a thread with its own key, value, colour
and so on; and what is written for a command, including what is opened before and closed behind it, with the number, name,
needle, positions and indices of that command. -/
theorem C101_text_partial (pr : Printer) (F : Forms) (doc : Doc) (hn : (doc.extras.map (·.1)).Nodup) (out : Str) (h : writeText pr F doc = .ok out) :
    ∃ (a z : Str) (ms ts : List Entry) (gs : List Group) (dz : Fields),
      out = a ++ ms.flatMap (·.out) ++ ts.flatMap (·.out) ++ gs.flatMap (·.out) ++ z ∧
      write F.texts doc.extras.length doc.threads.length doc.stitches =
        .ok (text (F.start .pattern).isSome (.start .pattern) ++ (List.range ms.length).map .metadata ++
          (List.range ts.length).map .thread ++ gs.flatMap Group.toks ++ text (F.stop .pattern).isSome (.stop .pattern)) ∧
      (∃ d, Describes doc d ∧ Spells pr F d d (text (F.start .pattern).isSome (.start .pattern)) a) ∧
      Entries F.metadataEntry doc.extras (MetadataEntry pr doc) ms ∧
      Entries F.threadEntry doc.threads (ThreadEntry pr doc) ts ∧
      (∀ g ∈ gs, g.True pr F doc) ∧
      Describes doc dz ∧ Spells pr F dz dz (text (F.stop .pattern).isSome (.stop .pattern)) z := by
  unfold writeText at h
  have h0 := describes_statistics doc hn
  obtain ⟨a, ha, h⟩ := bind_ok h
  obtain ⟨b, hb, h⟩ := bind_ok h
  obtain ⟨c, hc, h⟩ := bind_ok h
  obtain ⟨r, hr, h⟩ := bind_ok h
  obtain ⟨z, hz, rfl⟩ := map_ok h
  have hb' : ∃ ms, b.1 = ms.flatMap (·.out) ∧ Describes doc b.2 ∧ Entries F.metadataEntry doc.extras (MetadataEntry pr doc) ms ∧
      ms.length = if F.metadataEntry.isSome then doc.extras.length else 0 := by
    cases hm : F.metadataEntry with
    | none =>
      rw [hm] at hb
      obtain rfl : ([], statistics doc) = b := by injection hb
      exact ⟨[], rfl, h0, rfl, rfl⟩
    | some t =>
      rw [hm] at hb
      obtain ⟨es, e1, e2, e3, e4⟩ := entries_text (fun i a k hk => by rw [keys_metadata] at hk; simp [laterKeys, hk]) _ _ _ h0 b hb
      refine ⟨es, e1, e3, ⟨e2, ?_⟩, e2⟩
      intro i p e hp he
      obtain ⟨f1, f2, d', f3⟩ := e4 i p e hp he
      refine ⟨f1, f2, shows_of ?_⟩
      rw [f3, Nat.zero_add]
      exact fun kv hkv => upd_mem _ (metadataFields i p) (by rw [keys_metadata]; exact nodup_metadata) kv hkv
  obtain ⟨ms, m1, m2, m3, m4⟩ := hb'
  have hc' : ∃ ts, c.1 = ts.flatMap (·.out) ∧ Describes doc c.2 ∧ Entries F.threadEntry doc.threads (ThreadEntry pr doc) ts ∧
      ts.length = if F.threadEntry.isSome then doc.threads.length else 0 := by
    cases hm : F.threadEntry with
    | none =>
      rw [hm] at hc
      obtain rfl : ([], b.2) = c := by injection hc
      exact ⟨[], rfl, m2, rfl, rfl⟩
    | some t =>
      rw [hm] at hc
      obtain ⟨es, e1, e2, e3, e4⟩ := entries_text (fun i a k hk => by rw [keys_thread] at hk; simp [laterKeys, hk]) _ _ _ m2 c hc
      refine ⟨es, e1, e3, ⟨e2, ?_⟩, e2⟩
      intro i p e hp he
      obtain ⟨f1, f2, d', f3⟩ := e4 i p e hp he
      refine ⟨f1, f2, shows_of ?_⟩
      rw [f3, Nat.zero_add]
      exact fun kv hkv => upd_mem _ (threadFields i p) (by rw [keys_thread]; exact nodup_thread) kv hkv
  obtain ⟨ts, t1, t2, t3, t4⟩ := hc'
  obtain ⟨gs, s, g1, g2, g3, g4⟩ := run_text doc.stitches [] (St.init, c.2) ⟨t2, fun h => absurd h (by simp [St.init])⟩ rfl r hr
  refine ⟨a, z, ms, ts, gs, r.2, by rw [← m1, ← t1, ← g2], ?_, ⟨_, h0, spells_put ha rfl⟩, m3, t3, g3, g4, spells_put hz rfl⟩
  unfold write
  dsimp only [List.length_nil] at g1
  rw [g1, m4, t4]
  have h1 : F.texts.metadataEntry = F.metadataEntry.isSome := rfl
  have h2 : F.texts.threadEntry = F.threadEntry.isSome := rfl
  show Except.ok _ = _
  rw [h1, h2]
  cases F.metadataEntry <;> cases F.threadEntry <;> rfl

/-- A format string: braces are doubled, fields stand in braces. -/
def unpiece : Piece → Str
  | .lit c => if c = '{' ∨ c = '}' then [c, c] else [c]
  | .fld b => '{' :: b ++ ['}']

theorem pieces_open (b : Str) (hb : ∀ c ∈ b, c ≠ '{' ∧ c ≠ '}') (acc r : Str) :
    pieces (b ++ '}' :: r) (some acc) = (pieces r none).map (.fld (acc ++ b) :: ·) := by
  induction b generalizing acc with
  | nil => simp [pieces]
  | cons c b ih =>
    have hc := hb c (by simp)
    rw [List.cons_append, pieces, if_neg hc.2, ih (fun c h => hb c (by simp [h]))]
    simp

theorem fill_pieces (pr : Printer) (d : Fields) (ps : List Piece)
    (h : ∀ b, Piece.fld b ∈ ps → b ≠ [] ∧ ∀ c ∈ b, c ≠ '{' ∧ c ≠ '}') :
    fill pr d (ps.flatMap unpiece) = fillPieces pr d ps := by
  have key : pieces (ps.flatMap unpiece) none = .ok ps := by
    induction ps with
    | nil => rfl
    | cons p ps ih =>
      have ih := ih (fun b hb => h b (by simp [hb]))
      rw [List.flatMap_cons]
      cases p with
      | lit c =>
        by_cases h1 : c = '{'
        · subst h1
          show (pieces (ps.flatMap unpiece) none).map _ = _
          rw [ih]; rfl
        · by_cases h2 : c = '}'
          · subst h2
            show (pieces (ps.flatMap unpiece) none).map _ = _
            rw [ih]; rfl
          · rw [show unpiece (.lit c) = [c] by simp [unpiece, h1, h2], List.singleton_append]
            rw [pieces.eq_def]
            split
            · simp_all
            · simp_all
            · simp_all
            · simp_all
            · rename_i c' r' _ _ heq _
              injection heq with e1 e2
              subst e1 e2
              rw [if_neg h1, if_neg h2, ih]
              rfl
            · simp_all
      | fld b =>
        obtain ⟨hb, hc⟩ := h b (by simp)
        obtain ⟨c, b', rfl⟩ := List.exists_cons_of_ne_nil hb
        have h1 := (hc c (by simp)).1
        have e : unpiece (.fld (c :: b')) ++ ps.flatMap unpiece = '{' :: c :: (b' ++ '}' :: ps.flatMap unpiece) := by simp [unpiece]
        rw [e]
        have e2 : pieces ('{' :: c :: (b' ++ '}' :: ps.flatMap unpiece)) none = pieces (c :: b' ++ '}' :: ps.flatMap unpiece) (some []) := by
          rw [pieces.eq_def]
          split <;> simp_all
          rename_i heq
          obtain ⟨rfl, rfl⟩ := heq
          simp
        rw [e2, pieces_open _ hc, ih]
        rfl
  unfold fill
  rw [key]
  rfl

/-- A part of a format string: a character, or a field with what says how it is printed. -/
inductive Part where
  | letter (c : Char)
  | field (name spec : Str)

/-- As it stands in the format string: braces are doubled, fields stand in braces. -/
def Part.written : Part → Str
  | .letter c => if c = '{' ∨ c = '}' then [c, c] else [c]
  | .field name spec => '{' :: name ++ spec ++ ['}']

/-- A name, and nothing or a text that begins with `:` or `!` after it; no braces. -/
def Part.Good : Part → Prop
  | .letter _ => True
  | .field name spec => name ≠ [] ∧ (∀ c ∈ name, c ∉ ['{', '}', ':', '!']) ∧ (∀ c ∈ spec, c ∉ ['{', '}']) ∧
      ∀ c ∈ spec.head?, c ∈ [':', '!']

/-- What it is replaced by: the printed value of the field of that name. -/
def Part.Gives (pr : Printer) (d : Fields) : Part → Str → Prop
  | .letter c, s => s = [c]
  | .field name spec, s => ∃ v, d name = some v ∧ pr v spec = .ok s

def Part.piece : Part → Piece
  | .letter c => .lit c
  | .field name spec => .fld (name ++ spec)

theorem field_split {name spec : Str} (h : (Part.field name spec).Good) : fieldName (name ++ spec) = name ∧ fieldSpec (name ++ spec) = spec := by
  obtain ⟨-, h1, -, h3⟩ := h
  unfold fieldName fieldSpec
  have hp : ∀ c ∈ name, (decide (c ≠ ':' ∧ c ≠ '!')) = true := by
    intro c hc
    have := h1 c hc
    simp at this ⊢
    exact ⟨this.2.2.1, this.2.2.2⟩
  rw [List.takeWhile_append_of_pos hp, List.dropWhile_append_of_pos hp]
  cases spec with
  | nil => simp
  | cons c spec =>
    have := h3 c (by simp)
    have hc : ¬ (fun a : Char => decide (a ≠ ':' ∧ a ≠ '!')) c = true := by
      simp at this ⊢
      tauto
    rw [List.takeWhile_cons_of_neg (p := fun a : Char => decide (a ≠ ':' ∧ a ≠ '!')) hc,
      List.dropWhile_cons_of_neg (p := fun a : Char => decide (a ≠ ':' ∧ a ≠ '!')) hc, List.append_nil]
    exact ⟨rfl, rfl⟩

/-- **C101**: a format string is filled in as it says: characters as they are, doubled braces as braces, and every field in
braces by its value, printed as the text after the name says. -/
theorem C101_fill (pr : Printer) (d : Fields) (ps : List Part) (h : ∀ p ∈ ps, p.Good) (out : Str) :
    fill pr d (ps.flatMap Part.written) = .ok out ↔ ∃ ss, List.Forall₂ (Part.Gives pr d) ps ss ∧ out = ss.flatten := by
  have e : ps.flatMap Part.written = (ps.map Part.piece).flatMap unpiece := by
    rw [List.flatMap_map]
    congr 1
    funext p
    cases p <;> simp [Part.written, unpiece, Part.piece]
  rw [e, fill_pieces pr d _ (by
    intro b hb
    obtain ⟨p, hp, e⟩ := List.mem_map.1 hb
    cases p with
    | letter c => cases e
    | field name spec =>
      injection e with e
      subst e
      obtain ⟨h0, h1, h2, -⟩ := h _ hp
      refine ⟨by simp [h0], fun c hc => ?_⟩
      rcases List.mem_append.1 hc with hc | hc
      · have := h1 c hc; simp at this; exact ⟨this.1, this.2.1⟩
      · have := h2 c hc; simp at this; exact this)]
  clear e
  induction ps generalizing out with
  | nil =>
    constructor
    · intro h; injection h with h; exact ⟨[], .nil, h.symm⟩
    · rintro ⟨ss, hs, rfl⟩; cases hs; rfl
  | cons p ps ih =>
    have ih := ih (fun q hq => h q (by simp [hq]))
    have hg := h p (by simp)
    cases p with
    | letter c =>
      constructor
      · intro hf
        obtain ⟨r, hr, rfl⟩ := map_ok (show (fillPieces pr d (ps.map Part.piece)).map (c :: ·) = .ok out from hf)
        obtain ⟨ss, hs, rfl⟩ := (ih r).1 hr
        exact ⟨[c] :: ss, .cons rfl hs, rfl⟩
      · rintro ⟨ss, hs, rfl⟩
        cases hs with
        | cons h1 h2 =>
          subst h1
          show (fillPieces pr d (ps.map Part.piece)).map (c :: ·) = _
          rw [(ih _).2 ⟨_, h2, rfl⟩]
          rfl
    | field name spec =>
      obtain ⟨e1, e2⟩ := field_split hg
      rw [List.map_cons, Part.piece, fillPieces, e1, e2]
      constructor
      · intro hf
        cases hd : d name with
        | none => rw [hd] at hf; cases hf
        | some v =>
          rw [hd] at hf
          obtain ⟨a, ha, hf⟩ := bind_ok hf
          obtain ⟨r, hr, rfl⟩ := map_ok hf
          obtain ⟨ss, hs, rfl⟩ := (ih r).1 hr
          exact ⟨a :: ss, .cons ⟨v, hd, ha⟩ hs, rfl⟩
      · rintro ⟨ss, hs, rfl⟩
        cases hs with
        | cons h1 h2 =>
          obtain ⟨v, hd, ha⟩ := h1
          simp only [hd]
          show (pr v spec >>= _) = _
          rw [ha, (ih _).2 ⟨_, h2, rfl⟩]
          rfl

/-- A text with braces, a field and a field printed with two places. -/
example : (∀ p ∈ [Part.letter '{', .field "x".toList [], .field "y".toList ":.2f".toList], p.Good) ∧
    [Part.letter '{', .field "x".toList [], .field "y".toList ":.2f".toList].flatMap Part.written = "{{{x}{y:.2f}".toList := by
  refine ⟨?_, by decide +kernel⟩
  intro p hp
  simp at hp
  rcases hp with rfl | rfl | rfl
  · trivial
  · refine ⟨by decide, by decide, by decide, by decide⟩
  · refine ⟨by decide, by decide, by decide, by decide⟩

/-- **C101**: if the file is written, the numbers of the commands add up to the number of all commands. -/
theorem C101_sum (pr : Printer) (F : Forms) (doc : Doc) (out : Str) (h : writeText pr F doc = .ok out) :
    (nameDict.map (fun p => doc.stitches.countP (fun st => st.low = p.1))).sum = doc.stitches.length := by
  have named : ∀ st ∈ doc.stitches, st.low ∈ nameDict.map (·.1) := by
    have key : ∀ (l : List Stitch) (i : Nat) (p : St × Fields) (r), runText pr F i l p = .ok r → ∀ st ∈ l, st.low ∈ nameDict.map (·.1) := by
      intro l
      induction l with
      | nil => simp
      | cons a l ih =>
        intro i p r hr st hst
        obtain ⟨x, hx, hr⟩ := bind_ok hr
        obtain ⟨y, hy, -⟩ := map_ok hr
        rcases List.mem_cons.1 hst with rfl | hst
        · unfold stepText at hx
          obtain ⟨name, hname, -⟩ := bind_ok hx
          exact List.mem_map.2 ⟨_, lookup_mem hname, rfl⟩
        · exact ih _ _ _ hy st hst
    unfold writeText at h
    obtain ⟨a, ha, h⟩ := bind_ok h
    obtain ⟨b, hb, h⟩ := bind_ok h
    obtain ⟨c, hc, h⟩ := bind_ok h
    obtain ⟨r, hr, h⟩ := bind_ok h
    exact key _ _ _ _ hr
  have nd : (nameDict.map (·.1)).Nodup := by decide +kernel
  have gen : ∀ (ks : List Int), ks.Nodup → ∀ l : List Stitch, (∀ st ∈ l, st.low ∈ ks) →
      (ks.map (fun k => l.countP (fun st => st.low = k))).sum = l.length := by
    intro ks hk l
    induction l with
    | nil => simp
    | cons a l ih =>
      intro hl
      have ih := ih (fun st h => hl st (by simp [h]))
      simp only [List.countP_cons, List.sum_map_add, ih, List.length_cons]
      have : ∀ ks : List Int, ks.Nodup → a.low ∈ ks → (ks.map (fun k => if decide (a.low = k) = true then 1 else 0)).sum = 1 := by
        intro ks hk hm
        induction ks with
        | nil => cases hm
        | cons k ks ih =>
          rw [List.nodup_cons] at hk
          rw [List.map_cons, List.sum_cons]
          by_cases hak : a.low = k
          · have z : (ks.map (fun k => if decide (a.low = k) = true then 1 else 0)).sum = 0 := by
              rw [List.sum_eq_zero]
              intro x hx
              obtain ⟨k', hk', rfl⟩ := List.mem_map.1 hx
              rw [if_neg]
              simp only [decide_eq_true_eq]
              rintro rfl
              exact hk.1 (hak ▸ hk')
            rw [z]
            simp [hak]
          · rw [ih hk.2 (by simpa [hak] using hm)]
            simp [hak]
      rw [this ks hk (hl a (by simp))]
  have := gen _ nd _ named
  rw [List.map_map] at this
  exact this

/-- Integers and texts as they are. -/
def demoPrinter : Printer
  | .int n, _ => .ok (dec n)
  | .text s, _ => .ok s
  | _, _ => .ok ['?']

/-- Texts that show some of the fields. -/
def demoForms : Forms where
  metadataEntry := some "{metadata_key}={metadata_value};".toList
  threadEntry := some "{thread_index}:{thread_color};".toList
  start := fun | .pattern => some "{stitch_count} of {stitch_total}; ".toList
               | .color => some " [{thread_color} ".toList
               | _ => none
  stop := fun | .color => some "] ".toList | .pattern => some "{{{name}}}".toList | _ => none
  colorJoin := none
  blockJoin := none
  segmentStart := none
  segment := some (.table "{cmd_str}".toList (some "<{cmd_str}>".toList) [("STITCH".toList, "({ix},{iy})".toList)])
  segmentEnd := none
  segmentJoin := none
  own := fun _ => none
  zTravel := 10

/-- A design of two colours with a name. -/
def demoDoc : Doc where
  stitches := [⟨0, 0, STITCH⟩, ⟨10, 3, STITCH⟩, ⟨10, 3, COLOR_CHANGE⟩, ⟨20, 5, STITCH⟩, ⟨20, 5, END⟩]
  threads := [{ color := 0xff0000 }, { color := 0x0000ff }]
  extras := [("name".toList, "Rose".toList)]

/-- **C101** is false for the colours: the fields of a thread are set only where the threads are listed, so within the file
they are those of the last thread. Both colours of this design, which is red and blue, are announced as blue. -/
theorem C101_colour_fails : writeText demoPrinter demoForms demoDoc =
    .ok "3 of 5; name=Rose;0:#ff0000;1:#0000ff; [#0000ff (0,0)(10,3)<COLOR_CHANGE>]  [#0000ff (20,5)<END>] {Rose}".toList := by
  decide +kernel

/-- ... and where the threads are not listed they are not set at all. -/
theorem C101_colour_missing : writeText demoPrinter { demoForms with threadEntry := none } demoDoc = .error .keyError := by
  decide +kernel

/-- An entry of the metadata under a name that the writer uses is hidden. -/
theorem C101_hidden : writeText demoPrinter { demoForms with stop := fun _ => some "{x}{stitch_total}".toList }
    { stitches := [], threads := [], extras := [("stitch_total".toList, "many".toList), ("x".toList, "wide".toList)] } =
    .ok "0 of 0; stitch_total=many;x=wide;wide0".toList := by
  decide +kernel

example : (demoDoc.extras.map (·.1)).Nodup := by decide +kernel

end Generic
end Emb
