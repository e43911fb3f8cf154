import Verif.Spec.Kept
import Verif.Proofs.Work

/-! # How much an open file keeps in memory: lemmas -/

namespace Tedium
open SegSpec

/-! ## What is read takes its size in the file -/

/-- Reading `a` takes at least `w a` bytes. -/
def Takes {α : Type} (w : α → Nat) (x : Rd α) : Prop := ∀ f p a q, x f p = .ok (a, q) → p + w a ≤ q

namespace Takes
variable {α β : Type}

theorem bind {v : α → Nat} {w : β → Nat} {x : Rd α} {k : α → Rd β} (hx : Takes v x)
    (hk : ∀ a, Takes (fun b => w b - v a) (k a)) : Takes w (x >>= k) := by
  intro f p b q h
  replace h : Rd.bind x k f p = .ok (b, q) := h
  unfold Rd.bind at h
  cases hr : x f p with
  | error e => rw [hr] at h; cases h
  | ok u =>
    obtain ⟨a, r⟩ := u
    rw [hr] at h
    have h1 := hx f p a r hr
    have h2 := hk a f r b q h
    dsimp only at h2
    omega

theorem pure {w : α → Nat} {a : α} (h : w a = 0) : Takes w (Pure.pure a : Rd α) := by
  intro f p b q hb
  cases hb
  omega

theorem fail (w : α → Nat) (e : TdmsError) : Takes w (Rd.fail e : Rd α) := by
  intro f p b q hb; cases hb

theorem of_good {w : α → Nat} {x : Rd α} (hx : Good x) (h : ∀ a, w a = 0) : Takes w x := by
  intro f p a q hr
  have := (hx.mono hr).1
  rw [h a]
  exact this

theorem weaken {v w : α → Nat} {x : Rd α} (hx : Takes v x) (h : ∀ a, w a ≤ v a) : Takes w x := by
  intro f p a q hr
  have := hx f p a q hr
  have := h a
  omega

theorem exact (n : Nat) : Takes (fun b => b.length) (Rd.exact n) := by
  intro f p a q hr
  unfold Rd.exact at hr
  split at hr
  · cases hr
    show p + (List.take n (List.drop p f)).length ≤ p + n
    rw [List.length_take]
    omega
  · cases hr

theorem exact' (n : Nat) : Takes (fun _ => n) (Rd.exact n) := by
  intro f p a q hr
  unfold Rd.exact at hr
  split at hr
  · cases hr; exact Nat.le_refl _
  · cases hr

theorem uint (e : Endian) (n : Nat) : Takes (fun _ => n) (Rd.uint e n) :=
  (exact' n).bind (fun _ => pure (Nat.sub_self _))

theorem many {w : α → Nat} {x : Rd α} (hx : Takes w x) : ∀ n, Takes (fun as => (as.map w).sum) (Rd.many x n)
  | 0 => pure rfl
  | n + 1 => by
    refine hx.bind (fun a => ?_)
    refine (many hx n).bind (fun as => pure ?_)
    simp only [List.map_cons, List.sum_cons]
    omega

theorem text (al : Alloc) (e : Endian) : Takes (fun t => 4 + Kept.text t) (readText al e) := by
  refine (uint e 4).bind (fun n => ?_)
  unfold readStringWithLength
  split
  · refine (exact n).bind (fun b => ?_)
    cases hb : utf8Dec b with
    | none => exact fail _ _
    | some t =>
      refine pure ?_
      unfold Kept.text
      rw [utf8Enc_of_utf8Dec b t hb]
      omega
  · exact fail _ _

theorem property (al : Alloc) (e : Endian) :
    Takes (fun p => 8 + Kept.text p.1 + Kept.value p.2) (ObjectMetaData.readProp al e) := by
  refine (text al e).bind (fun n => ?_)
  have hv : Takes (fun v => 4 + Kept.value v) (PropertyValue.read al e) := by
    have hty : Takes (fun _ => 4) (readDataType e) := by
      refine (uint e 4).bind (fun n => ?_)
      cases DataType.ofCode? n with
      | none => exact fail _ _
      | some t => exact pure rfl
    refine hty.bind (fun ty => ?_)
    cases ty
    case tdmsString =>
      refine (text al e).weaken (w := fun t => Kept.text t) (fun t => by omega) |>.bind (fun t => pure ?_)
      show 4 + Kept.text t - 4 - Kept.text t = 0
      omega
    all_goals
      first
        | exact fail _ _
        | exact pure rfl
        | exact Takes.bind (v := fun _ => 0) (of_good (Good.storage al _ e) (fun _ => rfl)) (fun _ => pure rfl)
  refine hv.bind (fun v => pure ?_)
  dsimp only
  omega

/-- the size of an object in the metadata section, at least -/
def _root_.Tedium.Kept.entry (o : ObjectMetaData) : Nat := 12 + Kept.text o.path + Kept.properties o.properties

theorem object (al : Alloc) (e : Endian) : Takes Kept.entry (ObjectMetaData.read al e) := by
  have hraw : Takes (fun _ => 4) (RawDataIndex.read e) := by
    refine (uint e 4).bind (fun n => ?_)
    split
    · exact pure rfl
    · split
      · exact pure rfl
      · split
        · exact fail _ _
        · split
          · exact fail _ _
          · exact of_good (Good.bind (Good.dataType e) (fun _ => Good.bind (Good.uint e 4) (fun _ =>
              Good.bind (Good.uint e 8) (fun _ => Good.pure _)))) (fun _ => rfl)
  refine (text al e).bind (fun path => ?_)
  refine hraw.bind (fun raw => ?_)
  refine (uint e 4).bind (fun n => ?_)
  split
  · refine (many (property al e) n).bind (fun ps => pure ?_)
    dsimp only [Kept.entry, Kept.properties]
    omega
  · exact fail _ _

/-- the size of a segment, at least -/
def _root_.Tedium.Kept.segment (s : Segment) : Nat := 28 + ((entriesOf s).map Kept.entry).sum

theorem segment (al : Alloc) : Takes Kept.segment (Segment.read al) := by
  have hm : ∀ e, Takes (fun m : MetaData => (m.objects.map Kept.entry).sum) (MetaData.read al e) := by
    intro e
    refine Takes.bind (v := fun _ => 0) ((uint e 4).weaken (fun _ => by omega)) (fun n => ?_)
    split
    · refine (many (object al e) n).bind (fun os => pure ?_)
      dsimp only
      omega
    · exact fail _ _
  intro f p s q h
  rcases Segment.read_cases al f p with ⟨_, h1⟩ | ⟨_, _, h1⟩ | ⟨_, _, h1⟩
  · rw [h1] at h; cases h
  · rw [h1] at h; cases h
  · rw [h1] at h
    have hb : Takes (fun s => Kept.segment s - 4) (Segment.body al) := by
      refine (exact' 4).bind (fun buf => ?_)
      refine (uint _ 4).bind (fun _ => ?_)
      refine (uint _ 8).bind (fun _ => ?_)
      refine (uint _ 8).bind (fun _ => ?_)
      refine (hm _).bind (fun m => pure ?_)
      dsimp only [Kept.segment, entriesOf]
      omega
    have := hb f (p + 4) s q h
    dsimp only at this
    have h28 : 28 ≤ Kept.segment s := by unfold Kept.segment; omega
    omega

end Takes

/-! ## What the index keeps -/

theorem SMap.sum_insert_le {β : Type} (w : Text × β → Nat) (k : Text) (v : β) : ∀ m : SMap β,
    ((m.insert k v).map w).sum ≤ (m.map w).sum + w (k, v)
  | [] => by simp [SMap.insert]
  | (k', v') :: rest => by
    unfold SMap.insert
    have ih := SMap.sum_insert_le w k v rest
    cases hc : textCmp k k' with
    | lt => simp only [List.map_cons, List.sum_cons]; omega
    | eq =>
      have := textCmp_eq.mp hc
      subst this
      simp only [List.map_cons, List.sum_cons]; omega
    | gt => simp only [List.map_cons, List.sum_cons]; omega

theorem SMap.sum_insert_some {β : Type} (w : Text × β → Nat) (k : Text) (v o : β) : ∀ m : SMap β, SMap.Sorted m →
    m.get? k = some o → ((m.insert k v).map w).sum + w (k, o) = (m.map w).sum + w (k, v)
  | [], _, h => by cases h
  | (k', v') :: rest, hs, h => by
    unfold SMap.get? at h
    unfold SMap.insert
    have hs' : SMap.Sorted rest := (List.pairwise_cons.mp hs).2
    by_cases hk : k' = k
    · rw [if_pos hk] at h
      cases h
      subst hk
      rw [textCmp_refl]
      simp only [List.map_cons, List.sum_cons]; omega
    · rw [if_neg hk] at h
      have hmem := SMap.get?_some_mem h
      have hlt := (List.pairwise_cons.mp hs).1 _ hmem
      have hgt : textCmp k k' = .gt := textCmp_gt.mpr hlt
      rw [hgt]
      have ih := SMap.sum_insert_some w k v o rest hs' h
      simp only [List.map_cons, List.sum_cons]; omega

theorem kept_insertProps : ∀ (ps : List (Text × PropertyValue)) (m : SMap PropertyValue),
    Kept.properties (ObjectData.insertProps m ps) ≤ Kept.properties m + Kept.properties ps
  | [], m => Nat.le_add_right _ _
  | (n, v) :: rest, m => by
    unfold ObjectData.insertProps
    have h1 := kept_insertProps rest (m.insert n v)
    have h2 : Kept.properties (m.insert n v) ≤ Kept.properties m + (8 + Kept.text n + Kept.value v) :=
      SMap.sum_insert_le (fun p => 8 + Kept.text p.1 + Kept.value p.2) n v m
    have h3 : Kept.properties ((n, v) :: rest) = 8 + Kept.text n + Kept.value v + Kept.properties rest := by
      simp [Kept.properties]
    omega

/-- An object takes up what its description adds. -/
theorem kept_update {ix : Index} (h : Inv ix) (e : ObjectMetaData) :
    ((ix.objects.insert e.path (updatedObject (ix.objects.get? e.path) e)).map
      (fun o => 12 + Kept.text o.1 + Kept.properties o.2.properties)).sum ≤ Kept.objects ix + Kept.entry e := by
  unfold Kept.objects
  cases hg : ix.objects.get? e.path with
  | none =>
    have h1 := SMap.sum_insert_le (fun o : Text × ObjectData => 12 + Kept.text o.1 + Kept.properties o.2.properties) e.path
      (updatedObject none e) ix.objects
    have h2 := kept_insertProps e.properties []
    have h3 : Kept.properties [] = 0 := rfl
    dsimp only [updatedObject, Kept.entry] at h1 ⊢
    omega
  | some o =>
    have h1 := SMap.sum_insert_some (fun o : Text × ObjectData => 12 + Kept.text o.1 + Kept.properties o.2.properties) e.path
      (updatedObject (some o) e) o ix.objects h.sorted hg
    have h2 := kept_insertProps e.properties o.properties
    dsimp only [updatedObject, Kept.entry] at h1 ⊢
    omega

theorem kept_updateMetaObject {ix : Index} (h : Inv ix) (e : ObjectMetaData) :
    Kept.objects (ix.updateMetaObject e).2 ≤ Kept.objects ix + Kept.entry e := by
  rcases updateMetaObject_cases ix e with ⟨heq, _⟩ | ⟨o, ho, _, _, heq⟩ | ⟨_, _, heq⟩
  · rw [heq]; exact kept_update h e
  · rw [heq, ← ho]; exact kept_update h e
  · rw [heq]; exact Nat.le_add_right _ _

theorem kept_addObjects : ∀ (es : List ObjectMetaData) {ix : Index}, Inv ix →
    Kept.objects (ix.addObjects es).2 ≤ Kept.objects ix + (es.map Kept.entry).sum
  | [], ix, _ => Nat.le_add_right _ _
  | e :: es, ix, h => by
    unfold Index.addObjects
    have step : ∀ r : R Unit × Index, Inv r.2 → Kept.objects r.2 ≤ Kept.objects ix + Kept.entry e →
        Kept.objects (match r with
          | (.error e, ix) => (.error e, ix)
          | (.ok (), ix) => Index.addObjects ix es : R Unit × Index).2 ≤ Kept.objects ix + ((e :: es).map Kept.entry).sum := by
      rintro ⟨r, ix1⟩ hi hle
      simp only [List.map_cons, List.sum_cons]
      cases r with
      | error e' => dsimp only at hle ⊢; omega
      | ok u =>
        have := kept_addObjects es (ix := ix1) hi
        dsimp only at hle ⊢
        omega
    have honly := addObjects_inv h [e]
    apply step
    · split
      · rename_i hn
        exact h.updateMetaObject e (Or.inl hn)
      · rename_i hn
        exact h.updateOrActivate e (fun hh => hn hh)
    · split
      · exact kept_updateMetaObject h e
      · rename_i hn
        rcases updateOrActivate_cases h e (fun hh => hn hh) with ⟨_, heq⟩ | ⟨_, m, _, heq⟩ | ⟨_, _, _, heq⟩
        · rw [heq]; exact kept_update h e
        · rw [heq]; exact kept_update h e
        · rw [heq]; exact kept_updateMetaObject h e

/-- Adding a block changes no names and no properties. -/
theorem kept_addLocations (di n : Nat) : ∀ (as : List ActiveObject) (ci : Nat) (objs : SMap ObjectData), SMap.Sorted objs →
    ((Index.addLocations di n ci objs as).2.map (fun o => 12 + Kept.text o.1 + Kept.properties o.2.properties)).sum =
      (objs.map (fun o => 12 + Kept.text o.1 + Kept.properties o.2.properties)).sum
  | [], ci, objs, _ => rfl
  | a :: as, ci, objs, hs => by
    unfold Index.addLocations
    split
    · split
      · rfl
      · rename_i o ho
        rw [kept_addLocations di n as (ci + 1) _ (SMap.sorted_insert hs _ _)]
        have := SMap.sum_insert_some (fun o : Text × ObjectData => 12 + Kept.text o.1 + Kept.properties o.2.properties) a.path
          (o.addDataLocation ⟨di, ci, a.numberOfSamples * n⟩) o objs hs ho
        dsimp only [ObjectData.addDataLocation] at this ⊢
        omega
    · rfl

theorem kept_addRawData {ix : Index} (h : Inv ix) (s : Segment) : Kept.objects (ix.addRawData s).2 = Kept.objects ix := by
  unfold Index.addRawData
  split
  · split
    · rfl
    · split
      · rfl
      · split
        · rfl
        · unfold Index.insertDataBlock
          split
          · rfl
          · exact kept_addLocations _ _ _ _ _ h.sorted
  · rfl

theorem kept_addSegment {ix ix' : Index} {s : Segment} {n : Nat} (h : Inv ix) (ha : ix.addSegment s = (.ok n, ix')) :
    Kept.objects ix' ≤ Kept.objects ix + ((entriesOf s).map Kept.entry).sum := by
  rw [addSegment_eq] at ha
  obtain ⟨h1, _⟩ := h.afterObjects s
  have hle : Kept.objects (afterObjects ix s).2 ≤ Kept.objects ix + ((entriesOf s).map Kept.entry).sum := by
    unfold afterObjects
    split
    · exact kept_addObjects (entriesOf s) h.deactivate
    · exact kept_addObjects (entriesOf s) h
  revert ha h1 hle
  cases afterObjects ix s with
  | mk r ix1 =>
    intro ha h1 hle
    cases r with
    | error e => cases ha
    | ok u =>
      dsimp only at ha h1 hle
      have hk := kept_addRawData h1 s
      revert ha hk
      cases ix1.addRawData s with
      | mk r2 ix2 =>
        intro ha hk
        cases r2 with
        | error e => cases ha
        | ok u2 =>
          dsimp only at ha hk
          rw [advance_eq] at ha
          split at ha
          · cases ha
            show Kept.objects ix2 ≤ _
            omega
          · cases ha

theorem kept_replay : ∀ (segs : List Segment) {ix ix' : Index}, Inv ix → replay ix segs = .ok ix' →
    Inv ix' ∧ Kept.objects ix' ≤ Kept.objects ix + (segs.map (fun s => ((entriesOf s).map Kept.entry).sum)).sum
  | [], ix, ix', h, hr => by cases hr; exact ⟨h, Nat.le_add_right _ _⟩
  | s :: segs, ix, ix', h, hr => by
    unfold replay at hr
    cases ha : ix.addSegment s with
    | mk r ix1 =>
      rw [ha] at hr
      cases r with
      | error e => cases hr
      | ok n =>
        dsimp only at hr
        have h1 : Inv ix1 := by have := (h.addSegment s).1; rw [ha] at this; exact this
        have h2 := kept_addSegment h ha
        obtain ⟨h3, h4⟩ := kept_replay segs h1 hr
        refine ⟨h3, ?_⟩
        simp only [List.map_cons, List.sum_cons]
        omega

/-! ## Segments of a file -/

theorem parses_kept {al : Alloc} {f : Bytes} {pos : Nat} {segs : List Segment} {last : Fail} (h : Parses al f pos segs last) :
    (segs.map (fun s => ((entriesOf s).map Kept.entry).sum)).sum ≤ segs.length * f.length := by
  induction h with
  | done _ => exact Nat.zero_le _
  | @segment pos q s segs last hr _ ih =>
    have h1 := Takes.segment al f pos s q hr
    have h2 := (Segment.read_length hr).2
    unfold Kept.segment at h1
    simp only [List.map_cons, List.sum_cons, List.length_cons, Nat.succ_mul]
    omega

theorem parses_kept_orderly {al : Alloc} {f : Bytes} (ho : Orderly al f) {pos : Nat} {segs : List Segment} {last : Fail}
    (h : Parses al f pos segs last) (hs : Starts al f pos) :
    segs = [] ∨ pos + (segs.map Kept.segment).sum ≤ f.length := by
  induction h with
  | done _ => exact Or.inl rfl
  | @segment pos q s segs last hr _ ih =>
    right
    have h1 := Takes.segment al f pos s q hr
    have h2 := (Segment.read_length hr).2
    have h3 := ho pos s q hs hr
    simp only [List.map_cons, List.sum_cons]
    rcases ih (.next hs hr) with h4 | h4
    · subst h4; simp only [List.map_nil, List.sum_nil]; omega
    · omega

theorem sum_entries_le : ∀ segs : List Segment,
    (segs.map (fun s => ((entriesOf s).map Kept.entry).sum)).sum ≤ (segs.map Kept.segment).sum
  | [] => Nat.le_refl _
  | s :: segs => by
    have := sum_entries_le segs
    simp only [List.map_cons, List.sum_cons, Kept.segment] at this ⊢
    omega

/-! ## Tables -/

theorem sum_le_mul {α : Type} (g : α → Nat) (n : Nat) : ∀ l : List α, (∀ a ∈ l, g a ≤ n) → (l.map g).sum ≤ l.length * n
  | [], _ => Nat.zero_le _
  | a :: l, h => by
    have h1 := sum_le_mul g n l (fun b hb => h b (List.mem_cons_of_mem _ hb))
    have h2 := h a List.mem_cons_self
    simp only [List.map_cons, List.sum_cons, List.length_cons, Nat.succ_mul]
    omega

theorem mul_le_sum {α : Type} (g : α → Nat) (n : Nat) : ∀ l : List α, (∀ a ∈ l, n ≤ g a) → n * l.length ≤ (l.map g).sum
  | [], _ => by simp
  | a :: l, h => by
    have h1 := mul_le_sum g n l (fun b hb => h b (List.mem_cons_of_mem _ hb))
    have h2 := h a List.mem_cons_self
    simp only [List.map_cons, List.sum_cons, List.length_cons, Nat.mul_succ]
    omega

/-- Increasing numbers below `n`, from `k` on. -/
theorem increasing_length {α : Type} (g : α → Nat) (n : Nat) : ∀ (l : List α) (k : Nat),
    l.Pairwise (fun a b => g a < g b) → (∀ a ∈ l, k ≤ g a ∧ g a < n) → l.length ≤ n - k
  | [], _, _, _ => Nat.zero_le _
  | a :: l, k, hp, h => by
    have hc := List.pairwise_cons.mp hp
    have ha := h a List.mem_cons_self
    have := increasing_length g n l (k + 1) hc.2 (fun b hb => by
      have h1 := hc.1 b hb
      have h2 := h b (List.mem_cons_of_mem _ hb)
      omega)
    simp only [List.length_cons]
    omega

theorem locations_le {ix : Index} (h : Inv ix) {k : Text} {o : ObjectData} (ho : ix.objects.get? k = some o) :
    o.dataLocations.length ≤ ix.dataBlocks.length := by
  have := increasing_length (fun l : DataLocation => l.dataBlock) ix.dataBlocks.length o.dataLocations 0 (h.incr k o ho)
    (fun l hl => by
      obtain ⟨b, _, _, hb, _⟩ := h.valid k o ho l hl
      obtain ⟨hlt, _⟩ := List.getElem?_eq_some_iff.mp hb
      exact ⟨Nat.zero_le _, hlt⟩)
  omega

theorem nodup_subset_length {α : Type} [DecidableEq α] : ∀ {l m : List α}, l.Nodup → (∀ a ∈ l, a ∈ m) → l.length ≤ m.length
  | [], _, _, _ => Nat.zero_le _
  | a :: l, m, hn, h => by
    have hc := List.nodup_cons.mp hn
    have ha := h a List.mem_cons_self
    have := nodup_subset_length (m := m.erase a) hc.2 (fun b hb => by
      have hne : b ≠ a := fun hh => hc.1 (hh ▸ hb)
      exact (List.mem_erase_of_ne hne).mpr (h b (List.mem_cons_of_mem _ hb)))
    rw [List.length_erase_of_mem ha] at this
    have hpos : 0 < m.length := List.length_pos_of_mem ha
    simp only [List.length_cons]
    omega

theorem active_le {ix : Index} (h : Inv ix) : ix.activeObjects.length ≤ ix.objects.length := by
  have := nodup_subset_length (m := ix.objects.keys) h.nodup (fun p hp => by
    obtain ⟨a, ha, rfl⟩ := List.mem_map.mp hp
    obtain ⟨o, _, ho, _⟩ := h.active a ha
    exact SMap.mem_keys.mpr ⟨o, ho⟩)
  simpa [SMap.keys] using this

theorem SMap.length_insert_le {β : Type} (k : Text) (v : β) (m : SMap β) : m.length ≤ (m.insert k v).length := by
  induction m with
  | nil => exact Nat.zero_le _
  | cons p rest ih =>
    obtain ⟨k', v'⟩ := p
    unfold SMap.insert
    split <;> simp only [List.length_cons] <;> omega

theorem objects_addObjects : ∀ (es : List ObjectMetaData) {ix : Index}, Inv ix →
    ix.objects.length ≤ (ix.addObjects es).2.objects.length
  | [], ix, _ => Nat.le_refl _
  | e :: es, ix, h => by
    unfold Index.addObjects
    have step : ∀ r : R Unit × Index, Inv r.2 → ix.objects.length ≤ r.2.objects.length →
        ix.objects.length ≤ (match r with
          | (.error e, ix) => (.error e, ix)
          | (.ok (), ix) => Index.addObjects ix es : R Unit × Index).2.objects.length := by
      rintro ⟨r, ix1⟩ hi hle
      cases r with
      | error e' => exact hle
      | ok u => exact Nat.le_trans hle (objects_addObjects es (ix := ix1) hi)
    have hmeta : ix.objects.length ≤ (ix.updateMetaObject e).2.objects.length := by
      rcases updateMetaObject_cases ix e with ⟨heq, _⟩ | ⟨o, ho, _, _, heq⟩ | ⟨_, _, heq⟩ <;> rw [heq]
      · exact SMap.length_insert_le _ _ _
      · exact SMap.length_insert_le _ _ _
      · exact Nat.le_refl _
    apply step
    · split
      · rename_i hn
        exact h.updateMetaObject e (Or.inl hn)
      · rename_i hn
        exact h.updateOrActivate e (fun hh => hn hh)
    · split
      · exact hmeta
      · rename_i hn
        rcases updateOrActivate_cases h e (fun hh => hn hh) with ⟨_, heq⟩ | ⟨_, m, _, heq⟩ | ⟨_, _, _, heq⟩
        · rw [heq]; exact SMap.length_insert_le _ _ _
        · rw [heq]; exact SMap.length_insert_le _ _ _
        · rw [heq]; exact hmeta

theorem objects_addLocations (di n : Nat) : ∀ (as : List ActiveObject) (ci : Nat) (objs : SMap ObjectData),
    objs.length ≤ (Index.addLocations di n ci objs as).2.length
  | [], ci, objs => Nat.le_refl _
  | a :: as, ci, objs => by
    unfold Index.addLocations
    split
    · split
      · exact Nat.le_refl _
      · exact Nat.le_trans (SMap.length_insert_le _ _ _) (objects_addLocations di n as (ci + 1) _)
    · exact Nat.le_refl _

/-- A segment adds at most one block, which has as many channels as there are active objects. -/
theorem addRawData_grows {ix : Index} (h : Inv ix) (s : Segment) :
    ix.objects.length ≤ (ix.addRawData s).2.objects.length ∧
    ((ix.addRawData s).2.dataBlocks = ix.dataBlocks ∨
      ∃ b, (ix.addRawData s).2.dataBlocks = ix.dataBlocks ++ [b] ∧ b.channels.length = ix.activeObjects.length) := by
  unfold Index.addRawData
  split
  · obtain ⟨ms, hms, hlen, _, _⟩ := activeRawDataMeta_ok h.active
    rw [hms]
    dsimp only
    split
    · exact ⟨Nat.le_refl _, Or.inl rfl⟩
    · rename_i hne
      have hne' : ms ≠ [] := by intro hh; subst hh; simp at hne
      rcases fromSegment_cases s ix.nextSegmentStart ms hne' with ⟨_, he⟩ | ⟨_, he⟩ | ⟨_, _, he⟩ | ⟨_, _, he⟩
      · rw [he]; exact ⟨Nat.le_refl _, Or.inl rfl⟩
      · rw [he]; exact ⟨Nat.le_refl _, Or.inl rfl⟩
      · rw [he]; exact ⟨Nat.le_refl _, Or.inl rfl⟩
      · rw [he]
        dsimp only
        unfold Index.insertDataBlock
        split
        · exact ⟨Nat.le_refl _, Or.inl rfl⟩
        · exact ⟨objects_addLocations _ _ _ _ _, Or.inr ⟨_, rfl, hlen⟩⟩
  · exact ⟨Nat.le_refl _, Or.inl rfl⟩

theorem addSegment_tables {ix ix' : Index} {s : Segment} {n : Nat} (h : Inv ix) (ha : ix.addSegment s = (.ok n, ix')) :
    ix.objects.length ≤ ix'.objects.length ∧
    (ix'.dataBlocks = ix.dataBlocks ∨
      ∃ b, ix'.dataBlocks = ix.dataBlocks ++ [b] ∧ b.channels.length ≤ ix'.objects.length) := by
  rw [addSegment_eq] at ha
  obtain ⟨h1, _⟩ := h.afterObjects s
  have hf := (afterObjects_frame ix s).2
  have hle : ix.objects.length ≤ (afterObjects ix s).2.objects.length := by
    unfold afterObjects
    split
    · exact objects_addObjects (entriesOf s) h.deactivate
    · exact objects_addObjects (entriesOf s) h
  revert ha h1 hle hf
  cases afterObjects ix s with
  | mk r ix1 =>
    intro ha h1 hf hle
    cases r with
    | error e => cases ha
    | ok u =>
      dsimp only at ha h1 hle hf
      have hk := addRawData_grows h1 s
      have hact := active_le h1
      revert ha hk
      cases ix1.addRawData s with
      | mk r2 ix2 =>
        intro ha hk
        cases r2 with
        | error e => cases ha
        | ok u2 =>
          dsimp only at ha hk
          rw [advance_eq] at ha
          split at ha
          · cases ha
            dsimp only
            obtain ⟨k1, k2⟩ := hk
            refine ⟨by omega, ?_⟩
            rcases k2 with k2 | ⟨b, k2, k3⟩
            · exact Or.inl (k2.trans hf)
            · exact Or.inr ⟨b, by rw [k2, hf], by omega⟩
          · cases ha

theorem blocks_le_segments : ∀ (segs : List Segment) {ix ix' : Index}, Inv ix → replay ix segs = .ok ix' →
    ix'.dataBlocks.length ≤ ix.dataBlocks.length + segs.length
  | [], ix, ix', _, hr => by cases hr; exact Nat.le_refl _
  | s :: segs, ix, ix', h, hr => by
    unfold replay at hr
    cases ha : ix.addSegment s with
    | mk r ix1 =>
      rw [ha] at hr
      cases r with
      | error e => cases hr
      | ok n =>
        dsimp only at hr
        have h1 : Inv ix1 := by have := (h.addSegment s).1; rw [ha] at this; exact this
        have h2 := blocks_le_segments segs h1 hr
        simp only [List.length_cons]
        rcases (addSegment_tables h ha).2 with h3 | ⟨b, h3, _⟩ <;> rw [h3] at h2
        · omega
        · rw [List.length_append, List.length_singleton] at h2; omega

theorem channels_replay : ∀ (segs : List Segment) {ix ix' : Index}, Inv ix →
    (∀ b ∈ ix.dataBlocks, b.channels.length ≤ ix.objects.length) → replay ix segs = .ok ix' →
    ∀ b ∈ ix'.dataBlocks, b.channels.length ≤ ix'.objects.length
  | [], ix, ix', _, hb, hr => by cases hr; exact hb
  | s :: segs, ix, ix', h, hb, hr => by
    unfold replay at hr
    cases ha : ix.addSegment s with
    | mk r ix1 =>
      rw [ha] at hr
      cases r with
      | error e => cases hr
      | ok n =>
        dsimp only at hr
        have h1 : Inv ix1 := by have := (h.addSegment s).1; rw [ha] at this; exact this
        obtain ⟨g1, g2⟩ := addSegment_tables h ha
        refine channels_replay segs h1 ?_ hr
        intro b hbm
        rcases g2 with g2 | ⟨c, g2, g3⟩ <;> rw [g2] at hbm
        · exact Nat.le_trans (hb b hbm) g1
        · rcases List.mem_append.mp hbm with hbm | hbm
          · exact Nat.le_trans (hb b hbm) g1
          · rw [List.mem_singleton.mp hbm]; exact g3

end Tedium
