import Verif.Spec.Work
import Verif.Proofs.Reader
import Verif.Proofs.Open

/-!
# Enough memory for a file of a given length

What is read with one allocator is read with any other that grants all requests for which a file of that length has
room.
-/

namespace Tedium
open SegSpec

/-- What `y` reads in a file of at most `L` bytes `x` reads too, and it takes at least `m` bytes. -/
def Keeps {α : Type} (L m : Nat) (x y : Rd α) : Prop :=
  ∀ f p a q, f.length ≤ L → y f p = .ok (a, q) → x f p = .ok (a, q) ∧ p + m ≤ q ∧ (p < q → q ≤ f.length)

namespace Keeps

variable {α β : Type} {L m n : Nat}

theorem weaken {x y : Rd α} (h : Keeps L m x y) (hle : n ≤ m) : Keeps L n x y := by
  intro f p a q hf hy
  obtain ⟨h1, h2, h3⟩ := h f p a q hf hy
  exact ⟨h1, by omega, h3⟩

theorem of_good {x : Rd α} (h : Good x) : Keeps L 0 x x := by
  intro f p a q _ hx
  exact ⟨hx, (h.mono hx).1, (h.mono hx).2⟩

theorem bind {x y : Rd α} {k l : α → Rd β} (h : Keeps L m x y) (hk : ∀ a, Keeps L n (k a) (l a)) :
    Keeps L (m + n) (x >>= k) (y >>= l) := by
  intro f p a q hf hy
  replace hy : Rd.bind y l f p = .ok (a, q) := hy
  unfold Rd.bind at hy
  cases hr : y f p with
  | error e => rw [hr] at hy; cases hy
  | ok u =>
    obtain ⟨b, r⟩ := u
    rw [hr] at hy
    dsimp only at hy
    obtain ⟨h1, h2, h3⟩ := h f p b r hf hr
    obtain ⟨i1, i2, i3⟩ := hk b f r a q hf hy
    refine ⟨?_, by omega, ?_⟩
    · show Rd.bind x k f p = _
      unfold Rd.bind
      rw [h1]
      exact i1
    · intro hlt
      by_cases hrq : r < q
      · exact i3 hrq
      · have : r = q := by omega
        subst this
        exact h3 hlt

theorem pure (a : α) : Keeps L 0 (Pure.pure a : Rd α) (Pure.pure a) := of_good (Good.pure a)

theorem many {x y : Rd α} (h : Keeps L m x y) : ∀ n, Keeps L (m * n) (Rd.many x n) (Rd.many y n)
  | 0 => pure _
  | n + 1 => (h.bind (fun _ => (many h n).bind (fun _ => pure _))).weaken (by rw [Nat.mul_succ]; omega)

theorem exact (n : Nat) : Keeps L n (Rd.exact n) (Rd.exact n) := by
  intro f p a q hf hx
  have h := (Good.exact n).mono hx
  refine ⟨hx, ?_, h.2⟩
  unfold Rd.exact at hx
  split at hx
  · cases hx; exact Nat.le_refl _
  · cases hx

theorem uint (e : Endian) (w : Nat) : Keeps L w (Rd.uint e w) (Rd.uint e w) :=
  ((exact w).bind (fun _ => pure _)).weaken (by omega)

/-- A request whose memory is filled from the file. -/
theorem alloc {al al' : Alloc} {r : AllocReq} {er er' : TdmsError} {x y : Rd α} (h : Keeps L m x y)
    (hgrant : m ≤ L → al r = true) :
    Keeps L m (if al r then x else Rd.fail er) (if al' r then y else Rd.fail er') := by
  intro f p a q hf hy
  split at hy
  · obtain ⟨h1, h2, h3⟩ := h f p a q hf hy
    have hm : m ≤ L := by
      by_cases hlt : p < q
      · have := h3 hlt; omega
      · omega
    rw [if_pos (hgrant hm)]
    exact ⟨h1, h2, h3⟩
  · cases hy

variable {al al' : Alloc}

theorem string (h : Enough L al) (e : Endian) : Keeps L 4 (readText al e) (readText al' e) := by
  refine ((uint e 4).bind (n := 0) (fun n => ?_)).weaken (by omega)
  refine (alloc (m := n) ?_ (h.strings n)).weaken (Nat.zero_le _)
  refine ((exact n).bind (n := 0) (fun b => ?_)).weaken (by omega)
  cases utf8Dec b with
  | none => exact of_good (Good.fail _)
  | some t => exact pure _

theorem property (h : Enough L al) (e : Endian) : Keeps L 8 (ObjectMetaData.readProp al e) (ObjectMetaData.readProp al' e) := by
  refine ((string h e).bind (n := 4) (fun _ => ?_))
  refine (Keeps.bind (m := 4) (n := 0) ?_ (fun _ => pure _))
  have hty : Keeps L 4 (readDataType e) (readDataType e) := by
    refine (uint e 4).bind (n := 0) (fun n => ?_)
    cases DataType.ofCode? n with
    | none => exact of_good (Good.fail _)
    | some t => exact pure _
  refine hty.bind (n := 0) (fun ty => ?_)
  cases ty
  case tdmsString => exact (string h e).bind (n := 0) (fun _ => pure _) |>.weaken (by omega)
  all_goals
    first
      | exact of_good (Good.fail _)
      | exact pure _
      | exact of_good (Good.bind (Good.storage al _ e) (fun _ => Good.pure _))

theorem object (h : Enough L al) (e : Endian) : Keeps L 12 (ObjectMetaData.read al e) (ObjectMetaData.read al' e) := by
  have hraw : Keeps L 4 (RawDataIndex.read e) (RawDataIndex.read e) := by
    refine ((uint e 4).bind (n := 0) (fun n => ?_))
    split
    · exact pure _
    · split
      · exact pure _
      · split
        · exact of_good (Good.fail _)
        · split
          · exact of_good (Good.fail _)
          · exact of_good (Good.bind (Good.dataType e) (fun _ => Good.bind (Good.uint e 4) (fun _ =>
              Good.bind (Good.uint e 8) (fun _ => Good.pure _))))
  refine (string h e).bind (n := 8) (fun _ => hraw.bind (n := 4) (fun _ => (uint e 4).bind (n := 0) (fun n => ?_)))
  refine (alloc (m := 8 * n) ?_ (h.properties n)).weaken (Nat.zero_le _)
  exact (many (property h e) n).bind (n := 0) (fun _ => pure _)

theorem metaData (h : Enough L al) (e : Endian) : Keeps L 4 (MetaData.read al e) (MetaData.read al' e) := by
  refine (uint e 4).bind (n := 0) (fun n => ?_)
  refine (alloc (m := 12 * n) ?_ (h.objects n)).weaken (Nat.zero_le _)
  exact (many (object h e) n).bind (n := 0) (fun _ => pure _)

theorem segment (h : Enough L al) {f : Bytes} (hf : f.length ≤ L) {p : Nat} {s : Segment} {q : Nat}
    (hr : Segment.read al' f p = .ok (s, q)) : Segment.read al f p = .ok (s, q) := by
  have hbody : Keeps L 0 (Segment.body al) (Segment.body al') := by
    refine ((exact 4).bind (n := 0) (fun buf => ?_)).weaken (by omega)
    refine ((uint _ 4).bind (n := 0) (fun _ => ((uint _ 8).bind (n := 0) (fun _ => ((uint _ 8).bind (n := 0) (fun _ =>
      (Keeps.bind (m := 4) (n := 0) (metaData h _) (fun _ => pure _)).weaken (Nat.zero_le _))).weaken
      (Nat.zero_le _))).weaken (Nat.zero_le _))).weaken (Nat.zero_le _)
  rcases Segment.read_cases al' f p with ⟨_, h1⟩ | ⟨_, _, h1⟩ | ⟨h2, h3, h1⟩
  · rw [h1] at hr; cases hr
  · rw [h1] at hr; cases hr
  · rcases Segment.read_cases al f p with ⟨i2, _⟩ | ⟨_, i3, _⟩ | ⟨_, _, i1⟩
    · omega
    · exact absurd h3 i3
    · rw [h1] at hr
      rw [i1]
      exact (hbody f _ s q hf hr).1

end Keeps
end Tedium
