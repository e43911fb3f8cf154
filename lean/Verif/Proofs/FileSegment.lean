import Verif.Proofs.Open
import Verif.Proofs.Codec

/-! # Helper lemmas: files made of segments -/

namespace Tedium
open SegSpec

namespace FileSegment

theorem length_head (s : FileSegment) : s.head.length = 28 + s.metaData.size := by
  unfold head
  simp only [List.length_append, length_encNat, ToC.asBytes, tdsmTag, length_writeMetaData,
    List.length_cons, List.length_nil]
  omega

theorem length_encode (s : FileSegment) : s.encode.length = 28 + s.segment.nextSegmentOffset := by
  unfold encode segment
  rw [List.length_append, length_head]
  dsimp only
  omega

theorem reads (al : Alloc) (hal : Generous al) (s : FileSegment) (h : s.Fits) :
    Reads (Segment.read al) s.head s.segment := by
  intro f p hat
  unfold head at hat
  rw [At.append] at hat
  obtain ⟨htag, hat⟩ := hat
  have h4 := Reads.exact' (n := 4) (bs := tdsmTag) rfl f p htag
  unfold Segment.read
  rw [h4]
  dsimp only
  rw [if_neg (by simp)]
  have hread : Reads (do
        let buf ← Rd.exact 4
        Segment.readSegment al (if (ToC.fromU32 (decNat .little buf)).bigEndian then .big else .little)
          (ToC.fromU32 (decNat .little buf)))
      (s.toc.asBytes ++ (encNat s.endian 4 s.version ++
        (encNat s.endian 8 (s.metaData.size + s.rest.length) ++
          (encNat s.endian 8 s.rawOffset ++ s.metaData.write s.endian))))
      s.segment := by
    refine Reads.toc _ (fun t => Segment.readSegment al (if t.bigEndian then .big else .little) t) ?_
    rw [h.flag, isBig_endian]
    unfold Segment.readSegment
    refine Reads.bind (Reads.uint _ 4 _ h.version) ?_
    refine Reads.bind (Reads.uint _ 8 _ h.next) ?_
    refine Reads.bind (Reads.uint _ 8 _ h.raw) ?_
    exact Reads.bind_pure (Reads.metaData al hal _ _ h.metaData) (Reads.pure _)
  have := hread f _ hat
  refine this.trans ?_
  unfold head
  simp [Nat.add_assoc]

theorem read_at (al : Alloc) (hal : Generous al) (s : FileSegment) (h : s.Fits) (pre post : Bytes) :
    Segment.read al (pre ++ (s.head ++ post)) pre.length
      = .ok (s.segment, pre.length + (28 + s.metaData.size)) := by
  rw [reads al hal s h _ _ (At.mid pre s.head post), length_head]

theorem endOf_segments (fs : List FileSegment) :
    endOf (fs.map segment) = (fs.flatMap encode).length := by
  induction fs with
  | nil => rfl
  | cons s ss ih =>
    unfold endOf at ih ⊢
    rw [List.map_cons, List.map_cons, List.sum_cons, ih, List.flatMap_cons, List.length_append,
      length_encode]

/-- A file made of segments holds these segments, followed by those of the tail. -/
theorem parses (al : Alloc) (hal : Generous al) (fs : List FileSegment) (hf : ∀ s ∈ fs, s.Fits)
    (pre tail : Bytes) {segs : List Segment} {last : Fail}
    (ht : Parses al (pre ++ (fs.flatMap encode ++ tail)) (pre.length + (fs.flatMap encode).length) segs last) :
    Parses al (pre ++ (fs.flatMap encode ++ tail)) pre.length (fs.map segment ++ segs) last := by
  induction fs generalizing pre with
  | nil => simpa using ht
  | cons s ss ih =>
    have hr := read_at al hal s (hf s (by simp)) pre (s.rest ++ (ss.flatMap encode ++ tail))
    have hfile : pre ++ ((s :: ss).flatMap encode ++ tail)
        = pre ++ (s.head ++ (s.rest ++ (ss.flatMap encode ++ tail))) := by
      simp only [List.flatMap_cons, encode, List.append_assoc]
    have hfile2 : pre ++ ((s :: ss).flatMap encode ++ tail)
        = (pre ++ s.encode) ++ (ss.flatMap encode ++ tail) := by
      simp only [List.flatMap_cons, List.append_assoc]
    rw [List.map_cons, List.cons_append]
    refine .segment (by rw [hfile]; exact hr) ?_
    rw [hfile2] at ht ⊢
    have := ih (fun x hx => hf x (by simp [hx])) (pre ++ s.encode) (by
      rw [List.length_append, Nat.add_assoc]
      rw [List.flatMap_cons, List.length_append] at ht
      exact ht)
    rw [List.length_append, length_encode] at this
    exact this

/-- The segments of a file made of segments, when the rest is no segment. -/
theorem parses_done (al : Alloc) (hal : Generous al) (fs : List FileSegment) (hf : ∀ s ∈ fs, s.Fits)
    (tail : Bytes) {last : Fail}
    (ht : Segment.read al (fs.flatMap encode ++ tail) (fs.flatMap encode).length = .error last) :
    Parses al (fs.flatMap encode ++ tail) 0 (fs.map segment) last := by
  have := parses al hal fs hf [] tail (segs := []) (last := last) (by
    rw [List.nil_append, List.length_nil, Nat.zero_add]; exact .done ht)
  simpa using this

end FileSegment

theorem read_short {al : Alloc} (pre tail : Bytes) (h : tail.length < 4) :
    Segment.read al (pre ++ tail) pre.length = R.err .endOfFile := by
  rcases Segment.read_cases al (pre ++ tail) pre.length with ⟨_, h1⟩ | ⟨h1, _⟩ | ⟨h1, _⟩
  · exact h1
  · rw [List.length_append] at h1; omega
  · rw [List.length_append] at h1; omega

theorem read_foreign {al : Alloc} (pre tail : Bytes) (h : 4 ≤ tail.length) (ht : tail.take 4 ≠ tdsmTag) :
    Segment.read al (pre ++ tail) pre.length = R.err (.headerPatternNotMatched (tail.take 4)) := by
  have hd : (pre ++ tail).drop pre.length = tail := by simp
  rcases Segment.read_cases al (pre ++ tail) pre.length with ⟨h1, _⟩ | ⟨_, _, h1⟩ | ⟨_, h1, _⟩
  · rw [List.length_append] at h1; omega
  · rw [hd] at h1; exact h1
  · rw [hd] at h1; exact absurd h1 ht

end Tedium
