import Verif.Names
import Verif.Props.Commands

/-!
# Property C58: command names
-/

namespace Emb

/-- The commands that have a name in the tables: every constant of `EmbConstant.py` except `NO_COMMAND` (whose low byte is
255) and the four `CONTINGENCY_SEQUIN_*`. -/
def named : List Int :=
  [0, 1, 2, 3, 4, 5, 6, 7, 9, 0xB, 0xC, 0x10, 0xB0, 0xB1, 0xC0, 0xC1, 0xC2, 0xC3, 0xC4, 0xC5, 0xD1, 0xD2, 0xD3, 0xD4,
   0xD5, 0xD6, 0xD7, 0xD8, 0xE0, 0xE1, 0xE2, 0xE4, 0xE5, 0xE9, 0xF0, 0xF1, 0xF2]

theorem named_lookup : ∀ c ∈ named, ∃ n, lookup nameDict c = .ok n ∧ lookup commandDict n = .ok c ∧ ' ' ∉ n.toList ∧
    '"' ∉ n.toList ∧ '\r' ∉ n.toList := by
  have h : ∀ c ∈ named, (nameDict.find? (fun p => p.1 = c)).any (fun p =>
      (lookup nameDict c == .ok p.2) && (lookup commandDict p.2 == .ok c) && !(p.2.toList.contains ' ') &&
      !(p.2.toList.contains '"') && !(p.2.toList.contains '\r')) = true := by decide +kernel
  intro c hc
  have := h c hc
  rw [Option.any_eq_true] at this
  obtain ⟨p, _, hp⟩ := this
  simp only [Bool.and_eq_true, Bool.not_eq_true', beq_iff_eq, List.contains_eq_mem, decide_eq_false_iff_not] at hp
  exact ⟨p.2, hp.1.1.1.1, hp.1.1.1.2, hp.1.1.2, hp.1.2, hp.2⟩

/-- The words one field of a command word is printed as. -/
def words (c : Char) : Option Int → List Str
  | none => []
  | some v => [c :: dec v]

theorem split_suffix (c : Char) (hc : c ≠ ' ') (f : Option Int) (w t : Str) (hw : ' ' ∉ w) (ws : List Str)
    (ht : ∀ u, ' ' ∉ u → splitOn ' ' (u ++ t) = u :: ws) :
    splitOn ' ' (w ++ (suffix c f ++ t)) = w :: (words c f ++ ws) := by
  cases f with
  | none => simpa [suffix, words] using ht w hw
  | some v =>
    have h : w ++ (suffix c (some v) ++ t) = w ++ ' ' :: ((c :: dec v) ++ t) := by simp [suffix]
    rw [h, splitOn_append _ _ _ hw, ht]
    · rfl
    · simp only [List.mem_cons, not_or]
      exact ⟨Ne.symm hc, dec_ne (by decide) (by decide)⟩

/-- What reading a field back does. -/
theorem fold_words (c : Char) (k : Nat) (a b : Nat)
    (hc : ∀ v (x : Int), applySuffix x (c :: v) = parseInt v >>= fun n => .ok (Int.lor x ((n + 1) * 2 ^ k))) :
    (words c (decField (b : Int))).foldlM applySuffix (a : Int) = .ok ((a ||| b <<< k : Nat) : Int) := by
  unfold decField
  by_cases h : (b : Int) - 1 = -1
  · rw [if_pos h]
    have : b = 0 := by omega
    subst this
    simp [words]; rfl
  · rw [if_neg h]
    simp only [words, List.foldlM, hc, parseInt_dec]
    have e : ((b : Int) - 1 + 1) * 2 ^ k = ((b <<< k : Nat) : Int) := by
      rw [Nat.shiftLeft_eq]; push_cast; ring
    show (Except.ok (Int.lor (a : Int) (((b : Int) - 1 + 1) * 2 ^ k)) >>= fun s' => pure s') = _
    rw [e]; rfl

/-- **C58**: every command word of 32 bits whose command has a name is read back as it was, whatever thread, needle and
order it carries. Missing for the full claim: commands without a name (`C58_unnamed`). -/
theorem C58_roundtrip_partial (c : Int) (h0 : 0 ≤ c) (h1 : c < 2 ^ 32) (hn : c % 256 ∈ named) :
    decodedCommand (decodedName c) = .ok c := by
  obtain ⟨n, e1, e2, e3, _⟩ := named_lookup _ hn
  unfold decodedName decodeCommand
  simp only [e1]
  generalize hT : c / 256 % 256 = T
  generalize hN : c / 65536 % 256 = N
  generalize hO : c / 16777216 % 256 = O
  have s3 : ∀ u, ' ' ∉ u → splitOn ' ' (u ++ suffix 'o' (decField O)) = u :: words 'o' (decField O) := by
    intro u hu
    have := split_suffix 'o' (by decide) (decField O) u [] hu [] (fun u hu => by rw [List.append_nil, splitOn_plain _ _ hu])
    simpa using this
  have s2 := fun u hu => split_suffix 'n' (by decide) (decField N) u _ hu _ s3
  have s1 := split_suffix 't' (by decide) (decField T) n.toList _ e3 _ s2
  unfold decodedCommand
  rw [List.append_assoc, List.append_assoc, s1]
  simp only [String.ofList_toList, e2]
  have a1 := fold_words 't' 8 (c % 256).toNat T.toNat (fun _ _ => rfl)
  have a2 := fold_words 'n' 16 ((c % 256).toNat ||| T.toNat <<< 8) N.toNat (fun _ _ => rfl)
  have a3 := fold_words 'o' 24 ((c % 256).toNat ||| T.toNat <<< 8 ||| N.toNat <<< 16) O.toNat (fun _ _ => rfl)
  rw [Int.toNat_of_nonneg (by omega)] at a1 a2 a3
  rw [Int.toNat_of_nonneg (by omega)] at a1
  show (words 't' (decField T) ++ (words 'n' (decField N) ++ words 'o' (decField O))).foldlM applySuffix (c % 256) = _
  rw [List.foldlM_append, a1]
  show (words 'n' (decField N) ++ words 'o' (decField O)).foldlM applySuffix _ = _
  rw [List.foldlM_append, a2]
  show (words 'o' (decField O)).foldlM applySuffix _ = _
  rw [a3]
  have arith := encode_arith (c := (c % 256).toNat) (t := T.toNat) (n := N.toNat) (o := O.toNat) (by omega) (by omega) (by omega)
  have reorder : (c % 256).toNat ||| T.toNat <<< 8 ||| N.toNat <<< 16 ||| O.toNat <<< 24 =
      (c % 256).toNat ||| O.toNat <<< 24 ||| N.toNat <<< 16 ||| T.toNat <<< 8 := by
    generalize T.toNat <<< 8 = x
    generalize N.toNat <<< 16 = y
    generalize O.toNat <<< 24 = z
    rw [Nat.or_assoc, Nat.or_assoc, Nat.or_assoc, Nat.or_assoc, Nat.or_comm z, Nat.or_comm y x, Nat.or_assoc]
  rw [reorder, arith]
  exact congrArg Except.ok (by omega)

/-- Wider words and negative ones keep their 32 low bits. -/
theorem C58_low_bits (c : Int) (hn : c % 256 ∈ named) : decodedCommand (decodedName c) = .ok (c % 2 ^ 32) := by
  have e : decodeCommand c = decodeCommand (c % 2 ^ 32) := by
    unfold decodeCommand
    rw [show c % 2 ^ 32 % 256 = c % 256 by omega, show c % 2 ^ 32 / 256 % 256 = c / 256 % 256 by omega,
      show c % 2 ^ 32 / 65536 % 256 = c / 65536 % 256 by omega, show c % 2 ^ 32 / 16777216 % 256 = c / 16777216 % 256 by omega]
  have hn' : c % 2 ^ 32 % 256 ∈ named := by rw [show c % 2 ^ 32 % 256 = c % 256 by omega]; exact hn
  have n : decodedName c = decodedName (c % 2 ^ 32) := by
    obtain ⟨n, e1, _⟩ := named_lookup _ hn'
    have e2 : lookup nameDict (decodeCommand (c % 2 ^ 32)).1 = .ok n := e1
    unfold decodedName
    rw [e]
    simp only [e2]
  rw [n, C58_roundtrip_partial _ (by omega) (by omega) hn']

/-- Every other word of a pattern, whatever it carries, is written as `UNKNOWN …`, which the readers refuse with `KeyError`:
the full C58 fails for `NO_COMMAND` and for the sequin contingencies. -/
theorem C58_unnamed (c : Int) (hn : c % 256 ∉ named) : decodedCommand (decodedName c) = .error .keyError := by
  have h : ∀ i : Fin 256, (i.val : Int) ∉ named → lookup nameDict (i.val : Int) = .error .keyError := by decide +kernel
  have v : (((c % 256).toNat : Nat) : Int) = c % 256 := by omega
  have e : lookup nameDict (c % 256) = .error .keyError := by
    rw [← v] at hn ⊢
    exact h ⟨(c % 256).toNat, by omega⟩ hn
  unfold decodedName decodeCommand
  simp only [e]
  unfold decodedCommand
  have : "UNKNOWN ".toList ++ dec c = "UNKNOWN".toList ++ ' ' :: dec c := by
    rw [show "UNKNOWN ".toList = "UNKNOWN".toList ++ [' '] from by decide +kernel, List.append_assoc]; rfl
  rw [this, splitOn_append _ _ _ (by decide +kernel)]
  have k : lookup commandDict (String.ofList "UNKNOWN".toList) = .error .keyError := by decide +kernel
  simp only [k]
  rfl

/-- No two names are the same and no two commands share one: the two tables are inverse to each other except for
`NO_COMMAND`, which is in both but is never looked up by `decode_embroidery_command`. -/
theorem C58_tables : (∀ p ∈ commandDict, lookup nameDict p.2 = .ok p.1) ∧ (∀ p ∈ nameDict, lookup commandDict p.2 = .ok p.1) ∧
    (commandDict.map (·.1)).Nodup ∧ (commandDict.map (·.2)).Nodup := by decide +kernel

/-- A colour change to thread 17 with needle 3 and order 0, and a needle change with the largest fields. -/
example : (0x1041205 : Int) % 256 ∈ named ∧ decodedName 0x1041205 = "COLOR_CHANGE t17 n3 o0".toList ∧
    decodedCommand "COLOR_CHANGE t17 n3 o0".toList = .ok 0x1041205 ∧
    decodedCommand (decodedName 0xFFFFFF09) = .ok 0xFFFFFF09 ∧ decodedName NO_COMMAND = "UNKNOWN -1".toList ∧
    CONTINGENCY_SEQUIN_JUMP % 256 ∉ named := by decide +kernel

end Emb
