import Verif.Model.Build
import Verif.Spec.Segments

/-! # What users do with the two builds -/

namespace Tedium

/-- The states of a file that a user of a build can get to: open any byte string (or create an empty
    file), then make any calls, successful or not. -/
inductive Build.Session (B : Build) (al : Alloc) : TdmsFile → Prop
  | opened {f : Bytes} {t : TdmsFile} : B.new al f = .ok t → B.Session al t
  | call {t : TdmsFile} (op : Op) : B.Session al t → B.Session al (B.run al t op).2

/-- All calls, whatever their results: the results and the state after the last call. -/
def Build.runAll (B : Build) (al : Alloc) (t : TdmsFile) : List Op → List (R Unit) × TdmsFile
  | [] => ([], t)
  | op :: ops =>
    let r := B.run al t op
    let rest := B.runAll al r.2 ops
    (r.1 :: rest.1, rest.2)

/-- In the contiguous blocks in which a channel has samples, the first channel has values. -/
def FirstAt (t : TdmsFile) (ls : List DataLocation) : Prop :=
  ∀ l ∈ ls, 0 < l.numberOfSamples → ∀ b, t.index.getDataBlock l.dataBlock = some b → b.layout = .contigious →
    ∃ m0, b.channels.head? = some m0 ∧ 0 < m0.numberOfValues

namespace SegSpec

/-- If the last segment is interleaved, its channels have one common number of values per chunk. -/
def EvenRows (pre : List Segment) : Prop :=
  (∃ s ∈ pre.getLast?, s.toc.dataIsInterleaved = true) →
    ∀ m ∈ activeLayouts pre, ∀ m' ∈ activeLayouts pre, m.numberOfValues = m'.numberOfValues

end SegSpec
end Tedium
