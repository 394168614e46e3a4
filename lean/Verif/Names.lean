import Verif.Decimal
import Verif.Const
import Mathlib.Data.Int.Bitwise

/-!
# Command names of CSV and JSON files
-/

namespace Emb

/-- `get_command_dictionary()`, `EmbFunctions.py` 44-84. -/
def commandDict : List (String × Int) :=
  [("NO_COMMAND", NO_COMMAND), ("STITCH", STITCH), ("JUMP", JUMP), ("TRIM", TRIM), ("STOP", STOP), ("END", END),
   ("SLOW", SLOW), ("FAST", FAST), ("COLOR_CHANGE", COLOR_CHANGE), ("NEEDLE_SET", NEEDLE_SET),
   ("SET_CHANGE_SEQUENCE", SET_CHANGE_SEQUENCE), ("SEQUIN_MODE", SEQUIN_MODE), ("SEQUIN_EJECT", SEQUIN_EJECT),
   ("SEW_TO", SEW_TO), ("NEEDLE_AT", NEEDLE_AT), ("STITCH_BREAK", STITCH_BREAK), ("SEQUENCE_BREAK", SEQUENCE_BREAK),
   ("COLOR_BREAK", COLOR_BREAK), ("TIE_ON", TIE_ON), ("TIE_OFF", TIE_OFF), ("FRAME_EJECT", FRAME_EJECT),
   ("MATRIX_TRANSLATE", MATRIX_TRANSLATE), ("MATRIX_SCALE_ORIGIN", MATRIX_SCALE_ORIGIN),
   ("MATRIX_ROTATE_ORIGIN", MATRIX_ROTATE_ORIGIN), ("MATRIX_SCALE", MATRIX_SCALE), ("MATRIX_ROTATE", MATRIX_ROTATE),
   ("MATRIX_RESET", MATRIX_RESET), ("CONTINGENCY_TIE_ON_THREE_SMALL", CONTINGENCY_TIE_ON_THREE_SMALL),
   ("CONTINGENCY_TIE_OFF_THREE_SMALL", CONTINGENCY_TIE_OFF_THREE_SMALL),
   ("CONTINGENCY_TIE_ON_NONE", CONTINGENCY_TIE_ON_NONE), ("CONTINGENCY_TIE_OFF_NONE", CONTINGENCY_TIE_OFF_NONE),
   ("OPTION_MAX_STITCH_LENGTH", OPTION_MAX_STITCH_LENGTH), ("OPTION_MAX_JUMP_LENGTH", OPTION_MAX_JUMP_LENGTH),
   ("OPTION_IMPLICIT_TRIM", OPTION_IMPLICIT_TRIM), ("OPTION_EXPLICIT_TRIM", OPTION_EXPLICIT_TRIM),
   ("CONTINGENCY_LONG_STITCH_NONE", CONTINGENCY_LONG_STITCH_NONE),
   ("CONTINGENCY_LONG_STITCH_JUMP_NEEDLE", CONTINGENCY_LONG_STITCH_JUMP_NEEDLE),
   ("CONTINGENCY_LONG_STITCH_SEW_TO", CONTINGENCY_LONG_STITCH_SEW_TO)]

/-- `get_common_name_dictionary()`, `EmbFunctions.py` 88-127. -/
def nameDict : List (Int × String) :=
  [(NO_COMMAND, "NO_COMMAND"), (STITCH, "STITCH"), (JUMP, "JUMP"), (TRIM, "TRIM"), (STOP, "STOP"), (END, "END"),
   (SLOW, "SLOW"), (FAST, "FAST"), (COLOR_CHANGE, "COLOR_CHANGE"), (NEEDLE_SET, "NEEDLE_SET"),
   (SET_CHANGE_SEQUENCE, "SET_CHANGE_SEQUENCE"), (SEQUIN_MODE, "SEQUIN_MODE"), (SEQUIN_EJECT, "SEQUIN_EJECT"),
   (SEW_TO, "SEW_TO"), (NEEDLE_AT, "NEEDLE_AT"), (STITCH_BREAK, "STITCH_BREAK"), (SEQUENCE_BREAK, "SEQUENCE_BREAK"),
   (COLOR_BREAK, "COLOR_BREAK"), (TIE_ON, "TIE_ON"), (TIE_OFF, "TIE_OFF"), (FRAME_EJECT, "FRAME_EJECT"),
   (MATRIX_TRANSLATE, "MATRIX_TRANSLATE"), (MATRIX_SCALE, "MATRIX_SCALE"), (MATRIX_ROTATE, "MATRIX_ROTATE"),
   (MATRIX_SCALE_ORIGIN, "MATRIX_SCALE_ORIGIN"), (MATRIX_ROTATE_ORIGIN, "MATRIX_ROTATE_ORIGIN"),
   (MATRIX_RESET, "MATRIX_RESET"), (CONTINGENCY_TIE_ON_THREE_SMALL, "CONTINGENCY_TIE_ON_THREE_SMALL"),
   (CONTINGENCY_TIE_OFF_THREE_SMALL, "CONTINGENCY_TIE_OFF_THREE_SMALL"),
   (CONTINGENCY_TIE_ON_NONE, "CONTINGENCY_TIE_ON_NONE"), (CONTINGENCY_TIE_OFF_NONE, "CONTINGENCY_TIE_OFF_NONE"),
   (OPTION_MAX_STITCH_LENGTH, "OPTION_MAX_STITCH_LENGTH"), (OPTION_MAX_JUMP_LENGTH, "OPTION_MAX_JUMP_LENGTH"),
   (OPTION_IMPLICIT_TRIM, "OPTION_IMPLICIT_TRIM"), (OPTION_EXPLICIT_TRIM, "OPTION_EXPLICIT_TRIM"),
   (CONTINGENCY_LONG_STITCH_NONE, "CONTINGENCY_LONG_STITCH_NONE"),
   (CONTINGENCY_LONG_STITCH_JUMP_NEEDLE, "CONTINGENCY_LONG_STITCH_JUMP_NEEDLE"),
   (CONTINGENCY_LONG_STITCH_SEW_TO, "CONTINGENCY_LONG_STITCH_SEW_TO")]

/-- `dictionary[key]` on a dictionary literal (no key occurs twice in either table); a missing key is `KeyError`. -/
def lookup {α β : Type} [DecidableEq α] (d : List (α × β)) (k : α) : Except PyErr β :=
  match d.find? (fun p => p.1 = k) with
  | some p => .ok p.2
  | none => .error .keyError

/-- `" t" + str(command[1])` and so on, if the field is not `None`. -/
def suffix (c : Char) : Option Int → Str
  | none => []
  | some v => ' ' :: c :: dec v

/-- `decoded_name(names, data)`, `CsvWriter.py` 117-129 and `JsonWriter.py` 7-19. -/
def decodedName (data : Int) : Str :=
  let c := decodeCommand data
  match lookup nameDict c.1 with
  | .ok n => n.toList ++ suffix 't' c.2.1 ++ suffix 'n' c.2.2.1 ++ suffix 'o' c.2.2.2
  | .error _ => "UNKNOWN ".toList ++ dec data

/-- One word after the name: `CsvReader.py` 17-26, `JsonReader.py` 8-17. The three tests are made one after the other, but
only one of them can hold. `sp[0]` of an empty word is `IndexError`. -/
def applySuffix (command : Int) (sp : Str) : Except PyErr Int :=
  match sp with
  | [] => .error .indexError
  | 'n' :: v => parseInt v >>= fun n => .ok (Int.lor command ((n + 1) * 2 ^ 16))
  | 'o' :: v => parseInt v >>= fun n => .ok (Int.lor command ((n + 1) * 2 ^ 24))
  | 't' :: v => parseInt v >>= fun n => .ok (Int.lor command ((n + 1) * 2 ^ 8))
  | _ => .ok command

/-- `decoded_command(command_dict, name)`, `JsonReader.py` 5-18, and the same lines in `CsvReader.py` 15-26. -/
def decodedCommand (name : Str) : Except PyErr Int :=
  match splitOn ' ' name with
  | [] => .error .keyError
  | w :: ws => lookup commandDict (String.ofList w) >>= fun c => ws.foldlM applySuffix c

end Emb
