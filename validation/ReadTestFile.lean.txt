import Verif
/-! Run with: copy this file to a `.lean` file outside the project, then in /verif/lean
`lake env lean --run <file>`. It opens /repo/tests/tdms-test-file.tdms with the model and checks the expectations of
/repo/tests/read_properties.rs, read_structure.rs and read_with_offset.rs. A test of the model, not a proof. -/
open Tedium

def cp (g c : String) : ChannelPath := ChannelPath.new g.toList c.toList
def f64 (n : Nat) : BitVec 64 := BitVec.ofNat 64 (Float.ofNat n).toBits.toNat
def f32 (n : Nat) : BitVec 32 := BitVec.ofNat 32 (Float32.ofNat n).toBits.toNat
def testData (ch : Nat) : List (BitVec 64) := (List.range (if ch ≤ 2 then 10000 else 5000)).map fun i => f64 (ch*10000+i)
def A : Alloc := fun _ => true
def check (name : String) (b : Bool) : IO Unit := IO.println s!"{name}: {if b then "ok" else "FAIL"}"

def main : IO Unit := do
  let ba ← IO.FS.readBinFile "/repo/tests/tdms-test-file.tdms"
  let f : Bytes := ba.toList
  match TdmsFile.new A f with
  | .error e => IO.println s!"open failed {repr e}"
  | .ok t =>
    IO.println s!"open ok; blocks {t.index.dataBlocks.length}"
    IO.println s!"groups {repr (t.listGroups.toOption.map (·.map String.ofList))}"
    -- properties
    for p in [PropertyPath.file, PropertyPath.group "group".toList, PropertyPath.channel "group".toList "channel".toList] do
      match t.readAllProperties p with
      | none => IO.println "no object"
      | some ps => for (n, v) in ps do IO.println s!"  {String.ofList n} = {repr v}"
    -- structure
    let rd (g c : String) (start n : Nat) := t.readChannelFrom (STy.f64.storage A) (cp g c) start (List.replicate n (0 : BitVec 64))
    let same (x : R (List (BitVec 64))) (y : List (BitVec 64)) : Bool := match x with | .ok z => decide (z = y) | _ => false
    check "ch3 length" (t.channelLength (cp "structure" "ch3") matches .ok (some 10000))
    check "single ch3" (same (rd "structure" "ch3" 0 10000) (testData 2))
    match t.readChannels (numeric 8 .doubleFloat [.doubleFloat, .doubleFloatWithUnit]) [cp "structure" "ch1", cp "structure" "ch3"] [List.replicate 10000 (0 : BitVec 64), List.replicate 10000 (0 : BitVec 64)] with
    | .ok [a, b] => check "multi same" (decide (a = testData 0) && decide (b = testData 2))
    | _ => IO.println "multi same FAIL"
    match t.readChannels (numeric 8 .doubleFloat [.doubleFloat, .doubleFloatWithUnit]) [cp "structure" "ch1", cp "structure" "ch5"] [List.replicate 1250 (0 : BitVec 64), List.replicate 1250 (0 : BitVec 64)] with
    | .ok [a, b] => check "multi shorter" (decide (a = (testData 0).take 1250) && decide (b = (testData 4).take 1250))
    | _ => IO.println "multi shorter FAIL"
    check "subblock" (same (rd "subblock" "ch1" 0 2750) ((testData 0).take 2750))
    let nums (ty : STy) (g : Nat → ty.Val) [DecidableEq ty.Val] (name : String) : IO Unit := do
      match t.readChannel (ty.storage A) (cp "datatypes" name) (List.replicate 100 (g 0)) with
      | .ok z => check name (decide (z = (List.range 100).map g))
      | .error e => IO.println s!"{name} FAIL {repr e}"
    have : DecidableEq STy.i8.Val := inferInstanceAs (DecidableEq (BitVec 8))
    have : DecidableEq STy.u8.Val := inferInstanceAs (DecidableEq (BitVec 8))
    have : DecidableEq STy.i16.Val := inferInstanceAs (DecidableEq (BitVec 16))
    have : DecidableEq STy.u16.Val := inferInstanceAs (DecidableEq (BitVec 16))
    have : DecidableEq STy.i32.Val := inferInstanceAs (DecidableEq (BitVec 32))
    have : DecidableEq STy.u32.Val := inferInstanceAs (DecidableEq (BitVec 32))
    have : DecidableEq STy.i64.Val := inferInstanceAs (DecidableEq (BitVec 64))
    have : DecidableEq STy.u64.Val := inferInstanceAs (DecidableEq (BitVec 64))
    have : DecidableEq STy.f32.Val := inferInstanceAs (DecidableEq (BitVec 32))
    have : DecidableEq STy.f64.Val := inferInstanceAs (DecidableEq (BitVec 64))
    nums .i8 (fun n => BitVec.ofNat 8 n) "i8"
    nums .u8 (fun n => BitVec.ofNat 8 n) "u8"
    nums .i16 (fun n => BitVec.ofNat 16 n) "i16"
    nums .u16 (fun n => BitVec.ofNat 16 n) "u16"
    nums .i32 (fun n => BitVec.ofNat 32 n) "i32"
    nums .u32 (fun n => BitVec.ofNat 32 n) "u32"
    nums .i64 (fun n => BitVec.ofNat 64 n) "i64"
    nums .u64 (fun n => BitVec.ofNat 64 n) "u64"
    nums .f32 f32 "f32"
    nums .f64 f64 "f64"
    match t.readChannel (boolStorage) (cp "datatypes" "bool") (List.replicate 100 false) with
    | .ok z => check "bool" (decide (z.take 4 = [true,false,true,false]))
    | .error e => IO.println s!"bool FAIL {repr e}"
    match t.readChannel (timestampStorage) (cp "datatypes" "timestamp") (List.replicate 100 (0 : BitVec 128)) with
    | .ok z => check "timestamp" (decide (z.take 3 = [3780807865, 3780807866, 3780807867].map fun n : Nat => BitVec.ofNat 128 (n * 2^64)))
    | .error e => IO.println s!"timestamp FAIL {repr e}"
    match t.readChannel (complexStorage 8 .complexDoubleFloat .doubleFloat) (cp "datatypes" "complex_f64") (List.replicate 3 ⟨0, 0⟩) with
    | .ok z => IO.println s!"complex f64 {z.map fun c => (Float.ofBits c.real.toNat.toUInt64, Float.ofBits c.imaginary.toNat.toUInt64)}"
    | .error e => IO.println s!"complex FAIL {repr e}"
    -- offsets
    for s in [0, 10, 25, 50, 75] do check s!"from {s}" (same (rd "structure" "ch1" s 10) (((testData 0).drop s).take 10))
    check "beyond" (same (rd "structure" "ch1" 10100 10) (List.replicate 10 0))
    IO.println "done"
