import Verif.Py

/-!
# Command words

Models `EmbConstant.py` and `EmbFunctions.py` 4-41.
-/

namespace Emb

/-! `EmbConstant.py` 11-71 -/
def NO_COMMAND : Int := -1
def STITCH : Int := 0
def JUMP : Int := 1
def TRIM : Int := 2
def STOP : Int := 3
def END : Int := 4
def COLOR_CHANGE : Int := 5
def SEQUIN_MODE : Int := 6
def SEQUIN_EJECT : Int := 7
def NEEDLE_SET : Int := 9
def SLOW : Int := 0xB
def FAST : Int := 0xC
def SET_CHANGE_SEQUENCE : Int := 0x10
def SEW_TO : Int := 0xB0
def NEEDLE_AT : Int := 0xB1
def MATRIX_TRANSLATE : Int := 0xC0
def MATRIX_SCALE_ORIGIN : Int := 0xC1
def MATRIX_ROTATE_ORIGIN : Int := 0xC2
def MATRIX_RESET : Int := 0xC3
def MATRIX_SCALE : Int := 0xC4
def MATRIX_ROTATE : Int := 0xC5
def CONTINGENCY_TIE_ON_THREE_SMALL : Int := 0xD1
def CONTINGENCY_TIE_OFF_THREE_SMALL : Int := 0xD2
def CONTINGENCY_TIE_ON_NONE : Int := 0xD3
def CONTINGENCY_TIE_OFF_NONE : Int := 0xD4
def OPTION_MAX_STITCH_LENGTH : Int := 0xD5
def OPTION_MAX_JUMP_LENGTH : Int := 0xD6
def OPTION_EXPLICIT_TRIM : Int := 0xD7
def OPTION_IMPLICIT_TRIM : Int := 0xD8
def STITCH_BREAK : Int := 0xE0
def SEQUENCE_BREAK : Int := 0xE1
def COLOR_BREAK : Int := 0xE2
def TIE_ON : Int := 0xE4
def TIE_OFF : Int := 0xE5
def FRAME_EJECT : Int := 0xE9
def CONTINGENCY_LONG_STITCH_NONE : Int := 0xF0
def CONTINGENCY_LONG_STITCH_JUMP_NEEDLE : Int := 0xF1
def CONTINGENCY_LONG_STITCH_SEW_TO : Int := 0xF2
def CONTINGENCY_SEQUIN_UTILIZE : Int := 0xF5
def CONTINGENCY_SEQUIN_JUMP : Int := 0xF6
def CONTINGENCY_SEQUIN_STITCH : Int := 0xF7
def CONTINGENCY_SEQUIN_REMOVE : Int := 0xF8
def ALTERNATIVE : Int := 0x100

/-- `v & COMMAND_MASK` (`EmbConstant.py` 4). -/
def cmdOf (v : Int) : Int := v % 256

/-- `v & FLAGS_MASK` (`EmbConstant.py` 9): the second byte kept in place. -/
def flagsOf (v : Int) : Int := (v / 256 % 256) * 256

/-- One optional field of `encode_thread_change` (`EmbFunctions.py` 5-19): `None ↦ 0`, `i ↦ (i & 0xFF) + 1`. -/
def encField : Option Int → Nat
  | none => 0
  | some i => (i % 256).toNat + 1

/-- `encode_thread_change(command, thread, needle, order)`, `EmbFunctions.py` 4-21. The bitwise ORs are kept as such
(`Nat` bit operations; every operand is non-negative), because the fields can overlap when an index is 255. -/
def encodeThreadChange (command : Int) (thread needle order : Option Int) : Int :=
  (((command % 256).toNat ||| (encField order <<< 24) ||| (encField needle <<< 16) ||| (encField thread <<< 8) : Nat) : Int)

/-- One optional field of `decode_embroidery_command` (`EmbFunctions.py` 26-40): byte minus one, `-1 ↦ None`. -/
def decField (b : Int) : Option Int := if b - 1 = -1 then none else some (b - 1)

/-- `decode_embroidery_command(command)`, `EmbFunctions.py` 24-41, for a Python int of either sign. -/
def decodeCommand (c : Int) : Int × Option Int × Option Int × Option Int :=
  (c % 256, decField (c / 256 % 256), decField (c / 65536 % 256), decField (c / 16777216 % 256))

end Emb
