import Verif.Model.Messages
import Verif.Spec.Messages

/-! # Messages: numbers read back, and the fixed parts of the messages differ -/

namespace Tedium

/-- The value of a digit. -/
def digitValue (c : Char) : Nat := ['0', '1', '2', '3', '4', '5', '6', '7', '8', '9', 'A', 'B', 'C', 'D', 'E', 'F'].findIdx (· == c)

/-- Read a number back. -/
def scanNat (base : Nat) (s : Text) : Nat := s.foldl (fun a c => a * base + digitValue c) 0

theorem digitValue_digitChar : ∀ d : Fin 16, digitValue (digitChar d.1) = d.1 := by decide

theorem digit_plain : ∀ d : Fin 16, digitChar d.1 ≠ ' ' ∧ digitChar d.1 ≠ ',' ∧ digitChar d.1 ≠ ']' := by decide

theorem scanNat_printNat {base : Nat} (h2 : 2 ≤ base) (h16 : base ≤ 16) (n : Nat) :
    scanNat base (printNat base n) = n := by
  induction n using Nat.strongRecOn with
  | ind n ih =>
    rw [printNat]
    by_cases h : n < base ∨ base < 2
    · rw [dif_pos h]
      have : n < 16 := by omega
      have := digitValue_digitChar ⟨n, this⟩
      simp only [scanNat, List.foldl_cons, List.foldl_nil, Nat.zero_mul, Nat.zero_add]
      exact this
    · rw [dif_neg h]
      have hlt : n % base < base := Nat.mod_lt _ (by omega)
      have := digitValue_digitChar ⟨n % base, by omega⟩
      have hr := ih (n / base) (Nat.div_lt_self (by omega) (by omega))
      unfold scanNat at hr ⊢
      rw [List.foldl_append, hr, List.foldl_cons, List.foldl_nil]
      dsimp only at this
      rw [this, Nat.mul_comm]
      exact Nat.div_add_mod n base

theorem printNat_inj {base : Nat} (h2 : 2 ≤ base) (h16 : base ≤ 16) {a b : Nat}
    (h : printNat base a = printNat base b) : a = b := by
  rw [← scanNat_printNat h2 h16 a, h, scanNat_printNat h2 h16]

theorem printNat_plain {base : Nat} (h2 : 2 ≤ base) (h16 : base ≤ 16) (n : Nat) :
    ∀ c ∈ printNat base n, c ≠ ' ' ∧ c ≠ ',' ∧ c ≠ ']' := by
  induction n using Nat.strongRecOn with
  | ind n ih =>
    rw [printNat]
    by_cases h : n < base ∨ base < 2
    · rw [dif_pos h]
      intro c hc
      rw [List.mem_singleton.mp hc]
      exact digit_plain ⟨n, by omega⟩
    · rw [dif_neg h]
      have hlt : n % base < base := Nat.mod_lt _ (by omega)
      intro c hc
      rcases List.mem_append.mp hc with hc | hc
      · exact ih (n / base) (Nat.div_lt_self (by omega) (by omega)) c hc
      · rw [List.mem_singleton.mp hc]
        exact digit_plain ⟨n % base, by omega⟩

/-- Two texts that are the same up to the first occurrence of a separator. -/
theorem append_first_sep_inj {sep : Char} {a b x y : Text} (ha : ∀ c ∈ a, c ≠ sep) (hb : ∀ c ∈ b, c ≠ sep)
    (h : a ++ sep :: x = b ++ sep :: y) : a = b ∧ x = y := by
  induction a generalizing b with
  | nil =>
    cases b with
    | nil => exact ⟨rfl, (List.cons.inj h).2⟩
    | cons d ds =>
      have := (List.cons.inj h).1
      exact absurd this.symm (hb d List.mem_cons_self)
  | cons c cs ih =>
    cases b with
    | nil =>
      have := (List.cons.inj h).1
      exact absurd this (ha c List.mem_cons_self)
    | cons d ds =>
      have h2 := List.cons.inj h
      have := ih (fun c hc => ha c (List.mem_cons_of_mem _ hc)) (fun c hc => hb c (List.mem_cons_of_mem _ hc)) h2.2
      exact ⟨by rw [h2.1, this.1], this.2⟩

theorem hex_plain (n : Nat) : ∀ c ∈ hex n, c ≠ ' ' ∧ c ≠ ',' ∧ c ≠ ']' :=
  printNat_plain (by omega) (by omega) n

theorem hex_inj {a b : Nat} (h : hex a = hex b) : a = b := printNat_inj (by omega) (by omega) h
theorem decimal_inj {a b : Nat} (h : decimal a = decimal b) : a = b := printNat_inj (by omega) (by omega) h

theorem printNat_ne (base n : Nat) : printNat base n ≠ [] := by
  rw [printNat]
  split
  · exact List.cons_ne_nil _ _
  · exact List.append_ne_nil_of_right_ne_nil _ (List.cons_ne_nil _ _)

theorem printElements_inj {a b : Bytes} (h : printElements a = printElements b) : a = b := by
  induction a generalizing b with
  | nil =>
    match b with
    | [] => rfl
    | [x] => exact absurd h.symm (printNat_ne 16 _)
    | x :: y :: ys =>
      simp only [printElements, List.append_assoc] at h
      exact absurd h.symm (List.append_ne_nil_of_left_ne_nil (printNat_ne 16 _) _)
  | cons x xs ih =>
    have single : ∀ (p q : UInt8) (r : UInt8) (rs : Bytes), hex p.toNat ≠ printElements (q :: r :: rs) := by
      intro p q r rs hh
      have hm : ',' ∈ hex p.toNat := by
        rw [hh]; simp only [printElements]
        exact List.mem_append_left _ (List.mem_append_right _ List.mem_cons_self)
      exact (hex_plain _ _ hm).2.1 rfl
    match xs, b with
    | [], [] => exact absurd h (printNat_ne 16 _)
    | [], [y] =>
      rw [UInt8.toNat_inj.mp (hex_inj h)]
    | [], y :: z :: zs => exact absurd h (single _ _ _ _)
    | w :: ws, [] =>
      simp only [printElements, List.append_assoc] at h
      exact absurd h (List.append_ne_nil_of_left_ne_nil (printNat_ne 16 _) _)
    | w :: ws, [y] => exact absurd h.symm (single _ _ _ _)
    | w :: ws, y :: z :: zs =>
      rw [show printElements (x :: w :: ws) = hex x.toNat ++ [',', ' '] ++ printElements (w :: ws) from rfl,
        show printElements (y :: z :: zs) = hex y.toNat ++ [',', ' '] ++ printElements (z :: zs) from rfl] at h
      simp only [List.append_assoc, List.cons_append, List.nil_append] at h
      have := append_first_sep_inj (fun c hc => (hex_plain _ c hc).2.1) (fun c hc => (hex_plain _ c hc).2.1) h
      rw [UInt8.toNat_inj.mp (hex_inj this.1), ih (List.cons.inj this.2).2]

theorem printArray_inj {a b : Bytes} (h : printArray a = printArray b) : a = b := by
  unfold printArray at h
  simp only [List.cons_append, List.nil_append] at h
  exact printElements_inj (List.append_cancel_right (List.cons.inj h).2)

theorem DataType.mem_all (t : DataType) : t ∈ DataType.all := by cases t <;> decide

theorem DataType.shown_table :
    (DataType.all.all fun a => DataType.all.all fun b => a.shown != b.shown || a == b) = true := by decide +kernel

theorem DataType.debug_table :
    (DataType.all.all fun a => DataType.all.all fun b => a.debug != b.debug || a == b) = true := by decide +kernel

theorem DataType.shown_inj {a b : DataType} (h : a.shown = b.shown) : a = b := by
  have := List.all_eq_true.mp (List.all_eq_true.mp shown_table a (mem_all a)) b (mem_all b)
  rw [h, bne_self_eq_false, Bool.false_or] at this
  exact eq_of_beq this

theorem DataType.debug_inj {a b : DataType} (h : a.debug = b.debug) : a = b := by
  have := List.all_eq_true.mp (List.all_eq_true.mp debug_table a (mem_all a)) b (mem_all b)
  rw [h, bne_self_eq_false, Bool.false_or] at this
  exact eq_of_beq this

theorem DataType.shown_plain (t : DataType) : ∀ c ∈ t.shown, c ≠ ' ' := by
  cases t <;> decide +kernel

namespace TdmsError

/-- Which message it is. -/
def number : TdmsError → Fin 24
  | .missingObject _ => 0 | .ioError _ => 1 | .stringFormatError => 2 | .unknownPropertyType _ => 3
  | .unsupportedType _ => 4 | .headerPatternNotMatched _ => 5 | .dataBlockNotFound _ => 6
  | .badDataBlockLength _ _ => 7 | .dataTypeMismatch _ _ => 8 | .endOfFile => 9 | .segmentAddressOverflow => 10
  | .segmentTocDataBlockWithoutDataChannels => 11 | .invalidObjectPath _ => 12 | .invalidChannelPath _ => 13
  | .noChannels => 14 | .vecAllocationFailed => 15 | .stringAllocationFailed => 16
  | .propertyTableAllocationFailed => 17 | .zeroLengthDataBlock => 18 | .noActiveChannelsInDataBlock => 19
  | .noPreviousType => 20 | .invalidRawOffset => 21 | .chunkSizeOverflow => 22 | .daqmxChannelsNotSupported => 23

/-- The fixed beginnings of the messages: enough of each to tell it from the others. -/
def beginnings : List Text :=
  ["Gr", "IO", "St", "Unk", "Uns", "Attempted to read h", "Tr", "The data block h", "Attempti",
   "Attempted to read p", "The st", "The se", "Attempted to parse an i", "Attempted to parse an v", "Da",
   "Memory allocation error for v", "Memory allocation error for s", "Memory allocation error for p",
   "A data block has a", "A data block has n", "The data block w", "The r", "The c", "DA"].map String.toList

theorem beginnings_table :
    ((List.range 24).all fun i => (List.range 24).all fun j =>
      !(beginnings.getD i []).isPrefixOf (beginnings.getD j []) || i == j) = true := by decide +kernel

theorem beginnings_differ {i j : Fin 24} (h : beginnings.getD i.1 [] <+: beginnings.getD j.1 []) : i = j := by
  have := List.all_eq_true.mp (List.all_eq_true.mp beginnings_table i.1 (List.mem_range.mpr i.2)) j.1
    (List.mem_range.mpr j.2)
  rw [List.isPrefixOf_iff_prefix.mpr h, Bool.not_true, Bool.false_or] at this
  exact Fin.ext (eq_of_beq this)

theorem prefix_of_take {p s t : Text} (h : s.take p.length = p) : p <+: s ++ t :=
  List.IsPrefix.trans ⟨s.drop p.length, by rw [← List.take_append_drop p.length s] ; rw [h]; simp⟩
    (List.prefix_append s t)

theorem prefix_of_take_all {p s : Text} (h : s.take p.length = p) : p <+: s :=
  ⟨s.drop p.length, by rw [← List.take_append_drop p.length s] ; rw [h]; simp⟩

theorem message_begins : (e : TdmsError) → beginnings.getD e.number.1 [] <+: e.message
  | .missingObject _ => prefix_of_take (p := beginnings.getD 0 []) (s := "Group or Channel not found in index. ".toList) (by decide +kernel)
  | .ioError _ => prefix_of_take_all (p := beginnings.getD 1 []) (s := "IO Error".toList) (by decide +kernel)
  | .stringFormatError => prefix_of_take_all (p := beginnings.getD 2 []) (s := "String formatting error".toList) (by decide +kernel)
  | .unknownPropertyType _ => prefix_of_take (p := beginnings.getD 3 []) (s := "Unknown Property Type: ".toList) (by decide +kernel)
  | .unsupportedType _ => prefix_of_take (p := beginnings.getD 4 []) (s := "Unsupported Property Type: ".toList) (by decide +kernel)
  | .headerPatternNotMatched _ => prefix_of_take (p := beginnings.getD 5 []) (s := "Attempted to read header where no header exists. Bytes: ".toList) (by decide +kernel)
  | .dataBlockNotFound _ => prefix_of_take (p := beginnings.getD 6 []) (s := "Tried to access a datablock that doesn't exist when reading channel: ".toList) (by decide +kernel)
  | .badDataBlockLength _ _ => prefix_of_take (p := beginnings.getD 7 []) (s := "The data block has length ".toList) (by decide +kernel)
  | .dataTypeMismatch _ _ => prefix_of_take (p := beginnings.getD 8 []) (s := "Attempting to read a channel or property of type ".toList) (by decide +kernel)
  | .endOfFile => prefix_of_take_all (p := beginnings.getD 9 []) (s := "Attempted to read past the end of the file".toList) (by decide +kernel)
  | .segmentAddressOverflow => prefix_of_take_all (p := beginnings.getD 10 []) (s := "The start address for the next segment is invalid. The address overflowed. The file is likely corrupt.".toList) (by decide +kernel)
  | .segmentTocDataBlockWithoutDataChannels => prefix_of_take_all (p := beginnings.getD 11 []) (s := "The segment ToC expects a data block but no data channels are present. The file is likely corrupt.".toList) (by decide +kernel)
  | .invalidObjectPath _ => prefix_of_take (p := beginnings.getD 12 []) (s := "Attempted to parse an invalid object path. ".toList) (by decide +kernel)
  | .invalidChannelPath _ => prefix_of_take (p := beginnings.getD 13 []) (s := "Attempted to parse an valid but unsuitable path to a channel. ".toList) (by decide +kernel)
  | .noChannels => prefix_of_take_all (p := beginnings.getD 14 []) (s := "Data blocks must have at least 1 channel".toList) (by decide +kernel)
  | .vecAllocationFailed => prefix_of_take_all (p := beginnings.getD 15 []) (s := "Memory allocation error for vector. This is likely to be due to file corruption.".toList) (by decide +kernel)
  | .stringAllocationFailed => prefix_of_take_all (p := beginnings.getD 16 []) (s := "Memory allocation error for string. This is likely to be due to file corruption.".toList) (by decide +kernel)
  | .propertyTableAllocationFailed => prefix_of_take_all (p := beginnings.getD 17 []) (s := "Memory allocation error for property table. This is likely to be due to file corruption.".toList) (by decide +kernel)
  | .zeroLengthDataBlock => prefix_of_take_all (p := beginnings.getD 18 []) (s := "A data block has a lenght of zero. The file is likely to be corrupted.".toList) (by decide +kernel)
  | .noActiveChannelsInDataBlock => prefix_of_take_all (p := beginnings.getD 19 []) (s := "A data block has no active channels. The file is likely to be corrupted.".toList) (by decide +kernel)
  | .noPreviousType => prefix_of_take_all (p := beginnings.getD 20 []) (s := "The data block wants to use the same data type as previous, but no previous type is available.".toList) (by decide +kernel)
  | .invalidRawOffset => prefix_of_take_all (p := beginnings.getD 21 []) (s := "The raw data offset is greater than the next segment offset which is an invalid condition. The file is likely corrupt".toList) (by decide +kernel)
  | .chunkSizeOverflow => prefix_of_take_all (p := beginnings.getD 22 []) (s := "The calculated size for a data chunk is grater than 2^64 bytes. This isn't allowed and probably indicates a corrupt file.".toList) (by decide +kernel)
  | .daqmxChannelsNotSupported => prefix_of_take_all (p := beginnings.getD 23 []) (s := "DAQmx Channels are not supported yet".toList) (by decide +kernel)

/-- Equal messages are the message of the same variant. -/
theorem number_eq {e₁ e₂ : TdmsError} (h : e₁.message = e₂.message) : e₁.number = e₂.number := by
  have h1 := message_begins e₁
  have h2 := message_begins e₂
  rw [← h] at h2
  rcases List.prefix_or_prefix_of_prefix h1 h2 with hp | hp
  · exact beginnings_differ hp
  · exact (beginnings_differ hp).symm

end TdmsError
end Tedium
