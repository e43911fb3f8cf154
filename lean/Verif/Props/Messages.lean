import Verif.Proofs.Messages

/-! # C87: what an error's message tells -/

namespace Tedium

/-- **C87.** Two errors print the same message exactly when they are the same error about the same thing: from
    the text alone one can tell which error it is, and the path, type, type code, first bytes or lengths it is
    about. Only the cause of an I/O error and the number of a data block are not in the text. -/
theorem message_tells (e₁ e₂ : TdmsError) : e₁.message = e₂.message ↔ e₁.Alike e₂ := by
  constructor
  · intro h
    have hn := TdmsError.number_eq h
    have cancel : ∀ {s a b : Text}, s ++ a = s ++ b → a = b := fun h => List.append_cancel_left h
    cases e₁ with
    | missingObject p =>
      cases e₂ with
      | missingObject q => rw [cancel h]; exact .same _
      | _ => exact absurd hn (by intro h; cases h)
    | ioError k =>
      cases e₂ with
      | ioError q => exact .cause _ _
      | _ => exact absurd hn (by intro h; cases h)
    | unknownPropertyType a =>
      cases e₂ with
      | unknownPropertyType b => rw [hex_inj (cancel h)]; exact .same _
      | _ => exact absurd hn (by intro h; cases h)
    | unsupportedType a =>
      cases e₂ with
      | unsupportedType b => rw [DataType.debug_inj (cancel h)]; exact .same _
      | _ => exact absurd hn (by intro h; cases h)
    | headerPatternNotMatched a =>
      cases e₂ with
      | headerPatternNotMatched b => rw [printArray_inj (cancel h)]; exact .same _
      | _ => exact absurd hn (by intro h; cases h)
    | dataBlockNotFound a =>
      cases e₂ with
      | dataBlockNotFound b => exact .block _ _
      | _ => exact absurd hn (by intro h; cases h)
    | badDataBlockLength a b =>
      cases e₂ with
      | badDataBlockLength c d =>
        have h2 := append_first_sep_inj (sep := ' ')
          (fun x hx => (printNat_plain (base := 10) (by omega) (by omega) a x hx).1)
          (fun x hx => (printNat_plain (base := 10) (by omega) (by omega) c x hx).1)
          (x := "which is not divisible by the number of channels: ".toList ++ decimal b)
          (y := "which is not divisible by the number of channels: ".toList ++ decimal d) (cancel h)
        rw [printNat_inj (by omega) (by omega) h2.1, decimal_inj (cancel h2.2)]
        exact .same _
      | _ => exact absurd hn (by intro h; cases h)
    | dataTypeMismatch a b =>
      cases e₂ with
      | dataTypeMismatch c d =>
        have h2 := append_first_sep_inj (sep := ' ') a.shown_plain c.shown_plain
          (x := "as type ".toList ++ b.shown) (y := "as type ".toList ++ d.shown) (cancel h)
        rw [DataType.shown_inj h2.1, DataType.shown_inj (cancel h2.2)]
        exact .same _
      | _ => exact absurd hn (by intro h; cases h)
    | invalidObjectPath p =>
      cases e₂ with
      | invalidObjectPath q => rw [cancel h]; exact .same _
      | _ => exact absurd hn (by intro h; cases h)
    | invalidChannelPath p =>
      cases e₂ with
      | invalidChannelPath q => rw [cancel h]; exact .same _
      | _ => exact absurd hn (by intro h; cases h)
    | _ => cases e₂ <;> first | exact .same _ | exact absurd hn (by intro h; cases h)
  · intro h
    cases h <;> rfl

/-- **C87.** The printed name of a data type identifies it. -/
theorem type_name_tells (t₁ t₂ : DataType) : t₁.shown = t₂.shown ↔ t₁ = t₂ :=
  ⟨DataType.shown_inj, fun h => by rw [h]⟩

/-- **C87.** The message of a missing object ends in the text the path prints as, so that it can be turned back
    into the path by removing the fixed beginning. -/
theorem message_missing (c : ChannelPath) :
    (TdmsError.missingObject c.path).message.drop "Group or Channel not found in index. ".toList.length = c.shown :=
  List.drop_left

/-- Two mismatches the other way round print differently, and so do two type codes that differ in one digit. -/
theorem message_example :
    (TdmsError.dataTypeMismatch .i8 .u64).message =
      "Attempting to read a channel or property of type I8 as type U64".toList ∧
    (TdmsError.unknownPropertyType 0x8000c).message = "Unknown Property Type: 8000C".toList ∧
    (TdmsError.headerPatternNotMatched [0x54, 0x44, 0x0A, 0x00]).message =
      "Attempted to read header where no header exists. Bytes: [54, 44, A, 0]".toList ∧
    (TdmsError.badDataBlockLength 1004 10).message =
      "The data block has length 1004 which is not divisible by the number of channels: 10".toList ∧
    (TdmsError.ioError .unexpectedEof).message = (TdmsError.ioError .invalidInput).message ∧
    (TdmsError.dataTypeMismatch .i8 .u64).message ≠ (TdmsError.dataTypeMismatch .u64 .i8).message := by
  refine ⟨?_, ?_, ?_, ?_, ?_, ?_⟩ <;> decide +kernel

end Tedium
