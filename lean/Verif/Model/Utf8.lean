import Verif.Model.Basic

/-!
# UTF-8

`String::as_bytes` and `String::from_utf8` of the Rust standard library
(used in `src/io/data_types/strings.rs:23,44`). The decoder follows the Unicode standard's table of
well-formed byte sequences, which is what `core::str::from_utf8` implements.
-/

namespace Tedium

/-- The UTF-8 bytes of one scalar value. Part of `as_bytes`, `src/io/data_types/strings.rs:44`. -/
def utf8EncChar (c : Char) : Bytes :=
  let n := c.toNat
  if n < 0x80 then [UInt8.ofNat n]
  else if n < 0x800 then [UInt8.ofNat (0xC0 + n / 64), UInt8.ofNat (0x80 + n % 64)]
  else if n < 0x10000 then
    [UInt8.ofNat (0xE0 + n / 4096), UInt8.ofNat (0x80 + n / 64 % 64), UInt8.ofNat (0x80 + n % 64)]
  else
    [UInt8.ofNat (0xF0 + n / 262144), UInt8.ofNat (0x80 + n / 4096 % 64),
     UInt8.ofNat (0x80 + n / 64 % 64), UInt8.ofNat (0x80 + n % 64)]

/-- `String::as_bytes` (`src/io/data_types/strings.rs:44,50`) -/
def utf8Enc : Text → Bytes
  | [] => []
  | c :: cs => utf8EncChar c ++ utf8Enc cs

/-- continuation byte `10xxxxxx`. Part of `from_utf8`, `src/io/data_types/strings.rs:23`. -/
def isCont (b : UInt8) : Bool := 0x80 ≤ b.toNat && b.toNat < 0xC0

/-- `String::from_utf8` (`none` is the error). Over-long forms, surrogates and values above
    `0x10FFFF` are rejected (`src/io/data_types/strings.rs:23`). -/
def utf8Dec : Bytes → Option Text
  | [] => some []
  | b0 :: t0 =>
    let n0 := b0.toNat
    if n0 < 0x80 then (utf8Dec t0).map (Char.ofNat n0 :: ·)
    else match t0 with
    | [] => none
    | b1 :: t1 =>
      let n1 := b1.toNat
      if 0xC2 ≤ n0 && n0 < 0xE0 then
        if isCont b1 then
          (utf8Dec t1).map (Char.ofNat ((n0 - 0xC0) * 64 + (n1 - 0x80)) :: ·)
        else none
      else match t1 with
      | [] => none
      | b2 :: t2 =>
        let n2 := b2.toNat
        if 0xE0 ≤ n0 && n0 < 0xF0 then
          let n := (n0 - 0xE0) * 4096 + (n1 - 0x80) * 64 + (n2 - 0x80)
          if isCont b1 && isCont b2 && 0x800 ≤ n && !(0xD800 ≤ n && n < 0xE000) then
            (utf8Dec t2).map (Char.ofNat n :: ·)
          else none
        else match t2 with
        | [] => none
        | b3 :: t3 =>
          let n3 := b3.toNat
          let n := (n0 - 0xF0) * 262144 + (n1 - 0x80) * 4096 + (n2 - 0x80) * 64 + (n3 - 0x80)
          if 0xF0 ≤ n0 && n0 < 0xF8 && isCont b1 && isCont b2 && isCont b3
              && 0x10000 ≤ n && n < 0x110000 then
            (utf8Dec t3).map (Char.ofNat n :: ·)
          else none

end Tedium
