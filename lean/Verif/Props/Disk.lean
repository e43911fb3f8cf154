import Verif.Model.Disk
import Verif.Props.Growing
import Verif.Props.Reopen

/-! # C62-C64: files in a file system -/

namespace Tedium
open SegSpec WriteSpec ReadSpec

section
variable {ν : Type} [DecidableEq ν]

theorem new_empty (al : Alloc) : TdmsFile.new al [] = .ok ⟨Index.new, []⟩ := rfl

/-! ## C62 -/

omit [DecidableEq ν] in
/-- **C62, load.** Loading a file changes no file and no open file, whatever the outcome. A file that does not exist
    gives `NotFound`. If it succeeds there is one more open file, which is what opening the contents gives. -/
theorem load_changes_nothing (al : Alloc) (d : Disk ν) (name : ν) (refused : Option IoKind) :
    (d.load al name refused).2.files = d.files ∧
    (∀ h t, d.view h = some t → (d.load al name refused).2.view h = some t) ∧
    (∀ kind, refused = some kind → (d.load al name refused).1 = R.err (.ioError kind)) ∧
    (refused = none → d.files name = none → (d.load al name refused).1 = R.err (.ioError .notFound)) ∧
    (∀ f, refused = none → d.files name = some f →
      (∀ e, TdmsFile.new al f = .error e → (d.load al name refused).1 = .error e ∧ (d.load al name refused).2 = d) ∧
      ∀ t, TdmsFile.new al f = .ok t → (d.load al name refused).1 = .ok () ∧
        (d.load al name refused).2.handles.length = d.handles.length + 1 ∧
        (d.load al name refused).2.view d.handles.length = some t) := by
  have keep : ∀ (x : ν × Index) (h : Nat) (t : TdmsFile), d.view h = some t →
      ({ d with handles := d.handles ++ [x] } : Disk ν).view h = some t := by
    intro x h t hv
    unfold Disk.view at hv ⊢
    cases hh : d.handles[h]? with
    | none => rw [hh] at hv; cases hv
    | some y =>
      rw [hh] at hv
      dsimp only
      rw [List.getElem?_append_left ((List.getElem?_eq_some_iff.mp hh).1), hh]
      exact hv
  unfold Disk.load
  cases refused with
  | some kind =>
    refine ⟨rfl, fun _ _ h => h, fun k hk => (by cases hk; rfl), fun h => (by cases h), fun _ h => (by cases h)⟩
  | none =>
    cases hf : d.files name with
    | none => exact ⟨rfl, fun _ _ h => h, fun k hk => (by cases hk), fun _ _ => rfl, fun _ _ h => (by cases h)⟩
    | some f =>
      dsimp only
      cases hn : TdmsFile.new al f with
      | error e =>
        refine ⟨rfl, fun _ _ h => h, fun k hk => (by cases hk), fun _ h => (by cases h), fun f' _ h => ?_⟩
        cases h
        exact ⟨fun e' he => (by rw [hn] at he; cases he; exact ⟨rfl, rfl⟩), fun t ht => (by rw [hn] at ht; cases ht)⟩
      | ok t =>
        refine ⟨rfl, keep _, fun k hk => (by cases hk), fun _ h => (by cases h), fun f' _ h => ?_⟩
        cases h
        refine ⟨fun e' he => (by rw [hn] at he; cases he), fun t' ht => ?_⟩
        rw [hn] at ht
        cases ht
        refine ⟨rfl, by simp, ?_⟩
        unfold Disk.view
        simp only [List.getElem?_append_right (Nat.le_refl _), Nat.sub_self, List.getElem?_cons_zero, hf]
        have hb := (opened hn).1
        cases t
        simp only at hb
        subst hb
        rfl

/-- **C62, create.** Unless the file system refuses, `create` succeeds; the file is then empty, whatever it was before, and the
    new open file has no objects. If the file system refuses nothing changes. -/
theorem create_empties (al : Alloc) (d : Disk ν) (name : ν) :
    (d.create al name none).1 = .ok () ∧ (d.create al name none).2.files name = some [] ∧
    (d.create al name none).2.view d.handles.length = some ⟨Index.new, []⟩ ∧
    (∀ path, (TdmsFile.mk Index.new []).readAllProperties path = none) ∧
    (∀ kind, d.create al name (some kind) = (R.err (.ioError kind), d)) := by
  have h : d.create al name none = (.ok (),
      { files := Disk.put d.files name [], handles := d.handles ++ [(name, Index.new)] }) := rfl
  rw [h]
  refine ⟨rfl, ?_, ?_, fun _ => rfl, fun _ => rfl⟩
  · simp [Disk.put]
  · unfold Disk.view
    simp [Disk.put]

/-- The file that an action is about. -/
def DiskCall.target (d : Disk ν) : DiskCall ν → Option ν
  | .create name _ => some name
  | .load name _ => some name
  | .call handle _ => d.handles[handle]?.map Prod.fst

omit [DecidableEq ν] in
theorem view_eq {d d' : Disk ν} {h : Nat} {x : ν × Index} (hx : d.handles[h]? = some x) (hx' : d'.handles[h]? = some x)
    (hf : d'.files x.1 = d.files x.1) : d'.view h = d.view h := by
  unfold Disk.view
  rw [hx, hx']
  dsimp only
  rw [hf]

/-- **C62, other files.** An action changes neither the contents of other files nor what is seen through files opened on
    other names; and no action changes the name an open file belongs to. -/
theorem other_files_untouched (al : Alloc) (d : Disk ν) (c : DiskCall ν) :
    (∀ name, c.target d ≠ some name → (d.step al c).2.files name = d.files name) ∧
    (∀ (h : Nat) (name : ν) (index : Index), d.handles[h]? = some (name, index) → c.target d ≠ some name →
      (d.step al c).2.handles[h]? = some (name, index) ∧ (d.step al c).2.view h = d.view h) ∧
    (∀ (h : Nat) (name : ν) (index : Index), d.handles[h]? = some (name, index) →
      ∃ index', (d.step al c).2.handles[h]? = some (name, index')) := by
  have app : ∀ (x y : ν × Index) (h : Nat), d.handles[h]? = some x → (d.handles ++ [y])[h]? = some x := by
    intro x y h hh
    rw [List.getElem?_append_left ((List.getElem?_eq_some_iff.mp hh).1), hh]
  have files : ∀ name, c.target d ≠ some name → (d.step al c).2.files name = d.files name := by
    intro name hne
    cases c with
    | create n refused =>
      have hn : name ≠ n := fun hh => hne (by rw [hh]; rfl)
      show (d.create al n refused).2.files name = _
      unfold Disk.create
      cases refused with
      | some k => rfl
      | none => rw [new_empty]; simp [Disk.put, hn]
    | load n refused => exact congrFun (load_changes_nothing al d n refused).1 name
    | call k op =>
      show (d.call al k op).2.files name = _
      unfold Disk.call
      cases hk : d.handles[k]? with
      | none => rfl
      | some x =>
        obtain ⟨n, ix⟩ := x
        have hn : name ≠ n := fun hh => hne (by rw [hh]; show d.handles[k]?.map Prod.fst = _; rw [hk]; rfl)
        dsimp only
        cases hf : d.files n with
        | none => rfl
        | some b => simp [Disk.put, hn]
  have handle : ∀ (h : Nat) (name : ν) (index : Index), d.handles[h]? = some (name, index) →
      ∃ index', (d.step al c).2.handles[h]? = some (name, index') ∧ (c.target d ≠ some name → index' = index) := by
    intro h name index hh
    cases c with
    | create n refused =>
      show ∃ index', (d.create al n refused).2.handles[h]? = _ ∧ _
      unfold Disk.create
      cases refused with
      | some k => exact ⟨index, hh, fun _ => rfl⟩
      | none => rw [new_empty]; exact ⟨index, app _ _ h hh, fun _ => rfl⟩
    | load n refused =>
      show ∃ index', (d.load al n refused).2.handles[h]? = _ ∧ _
      unfold Disk.load
      cases refused with
      | some k => exact ⟨index, hh, fun _ => rfl⟩
      | none =>
        cases hf : d.files n with
        | none => exact ⟨index, hh, fun _ => rfl⟩
        | some f =>
          dsimp only
          cases hn : TdmsFile.new al f with
          | error e => exact ⟨index, hh, fun _ => rfl⟩
          | ok t => exact ⟨index, app _ _ h hh, fun _ => rfl⟩
    | call k op =>
      show ∃ index', (d.call al k op).2.handles[h]? = _ ∧ _
      unfold Disk.call
      cases hk : d.handles[k]? with
      | none => exact ⟨index, hh, fun _ => rfl⟩
      | some x =>
        obtain ⟨n, ix⟩ := x
        dsimp only
        cases hf : d.files n with
        | none => exact ⟨index, hh, fun _ => rfl⟩
        | some b =>
          dsimp only
          by_cases hkh : k = h
          · subst hkh
            rw [hh] at hk
            cases hk
            refine ⟨(op.run al ⟨index, b⟩).2.index, ?_, ?_⟩
            · rw [List.getElem?_set_self ((List.getElem?_eq_some_iff.mp hh).1)]
            · intro hne
              exact absurd (show d.handles[k]?.map Prod.fst = some name by rw [hh]; rfl) hne
          · exact ⟨index, by rw [List.getElem?_set_ne hkh]; exact hh, fun _ => rfl⟩
  refine ⟨files, ?_, fun h name index hh => ?_⟩
  · intro h name index hh hne
    obtain ⟨ix', h1, h2⟩ := handle h name index hh
    rw [h2 hne] at h1
    exact ⟨h1, view_eq hh h1 (files name hne)⟩
  · obtain ⟨ix', h1, _⟩ := handle h name index hh
    exact ⟨ix', h1⟩

theorem call_view (al : Alloc) {d : Disk ν} {h : Nat} {t : TdmsFile} (hv : d.view h = some t) (op : Op) :
    (d.step al (.call h op)).1 = (op.run al t).1 ∧ (d.step al (.call h op)).2.view h = some (op.run al t).2 := by
  unfold Disk.view at hv
  cases hh : d.handles[h]? with
  | none => rw [hh] at hv; cases hv
  | some x =>
    obtain ⟨name, ix⟩ := x
    rw [hh] at hv
    dsimp only at hv
    cases hf : d.files name with
    | none => rw [hf] at hv; cases hv
    | some b =>
      rw [hf] at hv
      cases hv
      have hs : d.step al (.call h op) = ((op.run al ⟨ix, b⟩).1,
          Disk.mk (Disk.put d.files name (op.run al ⟨ix, b⟩).2.bytes)
            (d.handles.set h (name, (op.run al ⟨ix, b⟩).2.index))) := by
        show d.call al h op = _
        unfold Disk.call
        rw [hh]
        dsimp only
        rw [hf]
      rw [hs]
      refine ⟨rfl, ?_⟩
      unfold Disk.view
      dsimp only
      rw [List.getElem?_set_self ((List.getElem?_eq_some_iff.mp hh).1)]
      simp [Disk.put]

/-- The calls made through one open file. -/
def DiskCall.through (h : Nat) : DiskCall ν → Option Op
  | .call k op => if k = h then some op else none
  | _ => none

/-- Among the actions, only calls through the open file `h` and loads are about the file `name`. -/
def Alone (al : Alloc) (name : ν) (h : Nat) : Disk ν → List (DiskCall ν) → Prop
  | _, [] => True
  | d, c :: cs => (c.target d = some name → (∃ op, c = .call h op) ∨ ∃ refused, c = .load name refused) ∧
      Alone al name h (d.step al c).2 cs

/-- **C62, sessions.** What is seen through an open file is the result of the calls made through it, however they
    are mixed with loads of the same file and with any use of other files. -/
theorem session_on_disk (al : Alloc) {name : ν} {h : Nat} : ∀ (cs : List (DiskCall ν)) {d : Disk ν} {index : Index} {t : TdmsFile},
    d.handles[h]? = some (name, index) → d.view h = some t → Alone al name h d cs →
    (d.run al cs).view h = some (runOps al t (cs.filterMap (DiskCall.through h))) := by
  intro cs
  induction cs with
  | nil => intro d index t _ hv _; exact hv
  | cons c cs ih =>
    intro d index t hh hv hal
    obtain ⟨hc, hrest⟩ := hal
    obtain ⟨index', hh'⟩ := (other_files_untouched al d c).2.2 h name index hh
    show (Disk.run al (d.step al c).2 cs).view h = _
    by_cases ht : c.target d = some name
    · rcases hc ht with ⟨op, rfl⟩ | ⟨refused, rfl⟩
      · rw [ih hh' (call_view al hv op).2 hrest]
        have : (DiskCall.call h op : DiskCall ν).through h = some op := by simp [DiskCall.through]
        rw [List.filterMap_cons_some this, runOps_cons]
      · rw [ih hh' ((load_changes_nothing al d name refused).2.1 h t hv) hrest]
        rw [List.filterMap_cons_none rfl]
    · have hv' := ((other_files_untouched al d c).2.1 h name index hh ht).2
      rw [hv] at hv'
      rw [ih hh' hv' hrest]
      have : c.through h = none := by
        cases c with
        | create => rfl
        | load => rfl
        | call k op =>
          show (if k = h then some op else none) = none
          rw [if_neg]
          intro hk
          subst hk
          exact ht (by show d.handles[k]?.map Prod.fst = _; rw [hh]; rfl)
      rw [List.filterMap_cons_none this]

/-! ## C63 -/

/-- The file is not created anew. -/
def Kept (name : ν) : DiskCall ν → Prop
  | .create n refused => n = name → refused ≠ none
  | _ => True

/-- Without `create`, files only grow. -/
theorem files_only_grow (al : Alloc) {name : ν} : ∀ (cs : List (DiskCall ν)) {d : Disk ν} {b : Bytes},
    d.files name = some b → (∀ c ∈ cs, Kept name c) → ∃ g, (d.run al cs).files name = some (b ++ g) := by
  intro cs
  induction cs with
  | nil => intro d b hb _; exact ⟨[], by rw [List.append_nil]; exact hb⟩
  | cons c cs ih =>
    intro d b hb hk
    have hstep : ∃ g, (d.step al c).2.files name = some (b ++ g) := by
      cases c with
      | create n refused =>
        have := hk _ List.mem_cons_self
        by_cases hn : n = name
        · cases refused with
          | none => exact absurd rfl (this hn)
          | some k => exact ⟨[], by rw [List.append_nil]; exact hb⟩
        · refine ⟨[], ?_⟩
          rw [(other_files_untouched al d (.create n refused)).1 name (fun hh => hn (Option.some.inj hh)), List.append_nil]
          exact hb
      | load n refused =>
        exact ⟨[], by rw [List.append_nil, ← hb]; exact congrFun (load_changes_nothing al d n refused).1 name⟩
      | call k op =>
        show ∃ g, (d.call al k op).2.files name = _
        unfold Disk.call
        cases hkk : d.handles[k]? with
        | none => exact ⟨[], by rw [List.append_nil]; exact hb⟩
        | some x =>
          obtain ⟨n, ix⟩ := x
          dsimp only
          cases hf : d.files n with
          | none => exact ⟨[], by rw [List.append_nil]; exact hb⟩
          | some f =>
            dsimp only
            by_cases hn : name = n
            · subst hn
              rw [hb] at hf
              cases hf
              obtain ⟨g, hg⟩ := Op.run_bytes al ⟨ix, b⟩ op
              exact ⟨g, by simp [Disk.put, hg]⟩
            · exact ⟨[], by simp [Disk.put, hn, hb]⟩
    obtain ⟨g, hg⟩ := hstep
    obtain ⟨g', hg'⟩ := ih hg (fun c hc => hk c (List.mem_cons_of_mem _ hc))
    exact ⟨g ++ g', by rw [← List.append_assoc]; exact hg'⟩

theorem handle_kept (al : Alloc) {name : ν} {h : Nat} {index : Index} : ∀ (cs : List (DiskCall ν)) {d : Disk ν},
    d.handles[h]? = some (name, index) → (∀ c ∈ cs, c.through h = none) →
    (d.run al cs).handles[h]? = some (name, index) := by
  intro cs
  induction cs with
  | nil => intro d hh _; exact hh
  | cons c cs ih =>
    intro d hh hno
    refine ih ?_ (fun c hc => hno c (List.mem_cons_of_mem _ hc))
    have hc := hno c List.mem_cons_self
    cases c with
    | create n refused =>
      show (d.create al n refused).2.handles[h]? = _
      unfold Disk.create
      cases refused with
      | some k => exact hh
      | none =>
        rw [new_empty]
        show (d.handles ++ _)[h]? = _
        rw [List.getElem?_append_left ((List.getElem?_eq_some_iff.mp hh).1), hh]
    | load n refused =>
      show (d.load al n refused).2.handles[h]? = _
      unfold Disk.load
      cases refused with
      | some k => exact hh
      | none =>
        cases hf : d.files n with
        | none => exact hh
        | some f =>
          dsimp only
          cases hn : TdmsFile.new al f with
          | error e => exact hh
          | ok t =>
            show (d.handles ++ _)[h]? = _
            rw [List.getElem?_append_left ((List.getElem?_eq_some_iff.mp hh).1), hh]
    | call k op =>
      have hk : k ≠ h := by
        intro hk
        subst hk
        simp [DiskCall.through] at hc
      show (d.call al k op).2.handles[h]? = _
      unfold Disk.call
      cases hkk : d.handles[k]? with
      | none => exact hh
      | some x =>
        obtain ⟨n, ix⟩ := x
        dsimp only
        cases hf : d.files n with
        | none => exact hh
        | some f =>
          show (d.handles.set k _)[h]? = _
          rw [List.getElem?_set_ne hk]
          exact hh

/-- **C63.** A program has a file open for reading, while others (through any number of open files, in any order, with
    any results) load and write the same file, but do not create it anew. Then everything that could be
    asked through the open file still has the same answer: objects, properties, listings, lengths, and every read that
    succeeded. And if the file can be loaded again, what is seen then extends what a load showed before. -/
theorem readers_beside_writers (al : Alloc) {name : ν} {h : Nat} {cs : List (DiskCall ν)} {d : Disk ν} {index : Index} {t : TdmsFile}
    (hh : d.handles[h]? = some (name, index)) (hv : d.view h = some t) (hk : ∀ c ∈ cs, Kept name c)
    (hno : ∀ c ∈ cs, c.through h = none) :
    ∃ t', (d.run al cs).view h = some t' ∧ t.bytes <+: t'.bytes ∧
      (∀ p n, t'.readProperty p n = t.readProperty p n) ∧ (∀ p, t'.readAllProperties p = t.readAllProperties p) ∧
      t'.listGroups = t.listGroups ∧ (∀ p, t'.listChannelsInGroup p = t.listChannelsInGroup p) ∧
      (∀ c, t'.channelLength c = t.channelLength c) ∧
      (∀ (ty : STy) c start out res, t.readChannelFrom (ty.storage al) c start out = .ok res →
        t'.readChannelFrom (ty.storage al) c start out = .ok res) ∧
      (∀ (ty : STy) chs start outs res, t.readChannelsFrom (ty.storage al) chs start outs = .ok res →
        t'.readChannelsFrom (ty.storage al) chs start outs = .ok res) ∧
      (∀ t0 t1, TdmsFile.new al t.bytes = .ok t0 → TdmsFile.new al t'.bytes = .ok t1 → Extends al t0 t1) := by
  unfold Disk.view at hv
  rw [hh] at hv
  dsimp only at hv
  cases hf : d.files name with
  | none => rw [hf] at hv; cases hv
  | some b =>
    rw [hf] at hv
    cases hv
    obtain ⟨g, hg⟩ := files_only_grow al cs hf hk
    have hh' := handle_kept al cs hh hno
    have hgrow : Grows ⟨index, b⟩ ⟨index, b ++ g⟩ := ⟨⟨g, rfl⟩, [], (List.append_nil _).symm⟩
    refine ⟨⟨index, b ++ g⟩, ?_, List.prefix_append _ _, fun _ _ => rfl, fun _ => rfl, rfl, fun _ => rfl, fun _ => rfl,
      fun ty c start out res hr => readChannelFrom_mono (STy.mono al ty) hgrow rfl hr,
      fun ty chs start outs res hr => readChannelsFrom_mono (STy.mono al ty) hgrow (fun _ _ => rfl) hr,
      fun t0 t1 h0 h1 => growing_file_extends h0 h1⟩
    unfold Disk.view
    rw [hh']
    dsimp only
    rw [hg]
    rfl

end

/-! ## C64 -/

/-- What a program does with one file: a call, or closing the file and loading it again. -/
inductive Action where
  | call (op : Op)
  | reopen

/-- The calls among the actions. -/
def Action.calls (as : List Action) : List Op :=
  as.filterMap (fun | .call op => some op | .reopen => none)

/-- All actions; the error of a load that fails. -/
def runActions (al : Alloc) (t : TdmsFile) : List Action → R TdmsFile
  | [] => .ok t
  | .call op :: as => runActions al (op.run al t).2 as
  | .reopen :: as =>
    match TdmsFile.new al t.bytes with
    | .error e => .error e
    | .ok t => runActions al t as

theorem actions_history (al : Alloc) (hal : Generous al) : ∀ (as : List Action) (fs : List FileSegment) (t : TdmsFile)
    (last : Last), Holds fs t → Session al t → last.channels = t.index.activeObjects.map (·.path) →
    AllSucceed al t (Action.calls as) → (∀ op ∈ Action.calls as, Distinct op) → (∀ op ∈ Action.calls as, OpFits op) →
    Described al last (Action.calls as) → (runOps al t (Action.calls as)).bytes.length < 2 ^ 64 →
    runActions al t as = .ok (runOps al t (Action.calls as)) := by
  intro as
  induction as with
  | nil => intros; rfl
  | cons a as ih =>
    intro fs t last h hs hl hall hdist hfit hdesc hsz
    cases a with
    | reopen =>
      show (match TdmsFile.new al t.bytes with
        | .error e => Except.error e
        | .ok t => runActions al t as) = _
      rw [h.new al hal]
      exact ih fs t last h hs hl hall hdist hfit hdesc hsz
    | call op =>
      have hc : Action.calls (.call op :: as) = op :: Action.calls as := rfl
      rw [hc] at hall hdist hfit hdesc hsz ⊢
      rw [allSucceed_cons] at hall
      rw [runOps_cons] at hsz ⊢
      have hsz1 : (op.run al t).2.bytes.length < 2 ^ 64 :=
        Nat.lt_of_le_of_lt (runOps_bytes al _ _).length_le hsz
      obtain ⟨hd1, hd2⟩ := described_cons hdesc
      obtain ⟨s, hr, _⟩ := h.call al op hl hall.1 (hfit op List.mem_cons_self) hd1 hsz1
      exact ih (fs ++ [s]) _ (last.after op) hr (.call op hs) (last_after_active al hs hl op (hdist op List.mem_cons_self) hall.1)
        hall.2 (fun o ho => hdist o (List.mem_cons_of_mem _ ho))
        (fun o ho => hfit o (List.mem_cons_of_mem _ ho)) hd2 hsz

/-- **C64** (guards of C32: no extended floats and strings, data writes that repeat the channel list must start with four
    zero bytes). Closing the file and loading it again, at any points between the calls and any number of times, makes no
    difference. -/
theorem reopening_makes_no_difference_partial (al : Alloc) (hal : Generous al) {t : TdmsFile}
    (hcreate : TdmsFile.create al = .ok t) (as : List Action) (hall : AllSucceed al t (Action.calls as))
    (hdist : ∀ op ∈ Action.calls as, Distinct op) (hfit : ∀ op ∈ Action.calls as, OpFits op)
    (hdesc : Described al Last.none (Action.calls as))
    (hsz : (runOps al t (Action.calls as)).bytes.length < 2 ^ 64) :
    runActions al t as = .ok (runOps al t (Action.calls as)) := by
  have ht := created_eq hcreate
  subst ht
  exact actions_history al hal as [] _ Last.none ⟨fun _ h => (by cases h), rfl, rfl⟩ (.created hcreate) rfl hall hdist hfit hdesc hsz

/-- The actions in a file system: each call goes through the last open file, which has the number `h`; loading opens
    another one, which gets the next number. Also, the number of the last open file after the actions. -/
def Action.onDisk {ν : Type} (name : ν) : (h handles : Nat) → List Action → List (DiskCall ν) × Nat
  | h, _, [] => ([], h)
  | h, n, .call op :: as => let r := onDisk name h n as; (.call h op :: r.1, r.2)
  | _, n, .reopen :: as => let r := onDisk name n (n + 1) as; (.load name none :: r.1, r.2)

/-- **C64, in a file system.** What is seen through the last open file is the result of the actions. -/
theorem actions_on_disk {ν : Type} [DecidableEq ν] (al : Alloc) (name : ν) : ∀ (as : List Action) (d : Disk ν) (h : Nat)
    (index : Index) (t t' : TdmsFile), d.handles[h]? = some (name, index) → d.view h = some t →
    runActions al t as = .ok t' →
    let r := Action.onDisk name h d.handles.length as
    (d.run al r.1).view r.2 = some t' ∧ (d.run al r.1).files name = some t'.bytes := by
  intro as
  induction as with
  | nil =>
    intro d h index t t' hh hv hr
    cases hr
    refine ⟨hv, ?_⟩
    unfold Disk.view at hv
    rw [hh] at hv
    dsimp only at hv
    cases hf : d.files name with
    | none => rw [hf] at hv; cases hv
    | some b => rw [hf] at hv; cases hv; exact hf
  | cons a as ih =>
    intro d h index t t' hh hv hr
    cases a with
    | call op =>
      obtain ⟨index', hh'⟩ := (other_files_untouched al d (.call h op)).2.2 h name index hh
      have hlen : (d.step al (.call h op)).2.handles.length = d.handles.length := by
        show (d.call al h op).2.handles.length = _
        unfold Disk.call
        rw [hh]
        dsimp only
        cases d.files name with
        | none => rfl
        | some b => exact List.length_set
      have := ih _ h index' _ t' hh' (call_view al hv op).2 hr
      rw [hlen] at this
      exact this
    | reopen =>
      have hf : d.files name = some t.bytes := by
        unfold Disk.view at hv
        rw [hh] at hv
        dsimp only at hv
        cases hf : d.files name with
        | none => rw [hf] at hv; cases hv
        | some b => rw [hf] at hv; cases hv; rfl
      cases hn : TdmsFile.new al t.bytes with
      | error e =>
        unfold runActions at hr
        rw [hn] at hr
        cases hr
      | ok t1 =>
        unfold runActions at hr
        rw [hn] at hr
        obtain ⟨_, _, _, _, hl⟩ := load_changes_nothing al d name none
        obtain ⟨_, hlen, hview⟩ := (hl _ rfl hf).2 t1 hn
        have hh' : (d.step al (.load name none)).2.handles[d.handles.length]? = some (name, t1.index) := by
          show (d.load al name none).2.handles[d.handles.length]? = _
          unfold Disk.load
          dsimp only
          rw [hf]
          dsimp only
          rw [hn]
          show (d.handles ++ [(name, t1.index)])[d.handles.length]? = _
          rw [List.getElem?_append_right (Nat.le_refl _), Nat.sub_self]
          rfl
        have := ih _ _ _ _ t' hh' hview hr
        rw [show (d.step al (.load name none)).2.handles.length = d.handles.length + 1 from hlen] at this
        exact this

/-- **C64, in a file system** (same guards). A program creates a file and makes some calls, once keeping the file open and once
    closing and loading it between them: it sees the same in the end, and the file is the same. -/
theorem reopening_on_disk_partial {ν : Type} [DecidableEq ν] (al : Alloc) (hal : Generous al) (name : ν) (d : Disk ν)
    (as : List Action) (hall : AllSucceed al ⟨Index.new, []⟩ (Action.calls as))
    (hdist : ∀ op ∈ Action.calls as, Distinct op) (hfit : ∀ op ∈ Action.calls as, OpFits op)
    (hdesc : Described al Last.none (Action.calls as))
    (hsz : (runOps al ⟨Index.new, []⟩ (Action.calls as)).bytes.length < 2 ^ 64) :
    let created := (d.step al (.create name none)).2
    let h := d.handles.length
    let reopened := created.run al (Action.onDisk name h (h + 1) as).1
    let kept := created.run al ((Action.calls as).map (.call h))
    reopened.view (Action.onDisk name h (h + 1) as).2 = kept.view h ∧ reopened.files name = kept.files name ∧
      (kept.view h).isSome = true := by
  have hempty : TdmsFile.create al = .ok ⟨Index.new, []⟩ := rfl
  have hc : (d.step al (.create name none)).2 = ⟨Disk.put d.files name [], d.handles ++ [(name, Index.new)]⟩ := rfl
  intro created h reopened kept
  have hh : created.handles[h]? = some (name, Index.new) := by
    show (d.handles ++ [(name, Index.new)])[d.handles.length]? = _
    rw [List.getElem?_append_right (Nat.le_refl _), Nat.sub_self]
    rfl
  have hv : created.view h = some ⟨Index.new, []⟩ := by
    unfold Disk.view
    rw [hh]
    show ((Disk.put d.files name []) name).map _ = _
    unfold Disk.put
    rw [if_pos rfl]
    rfl
  have hlen : created.handles.length = h + 1 := by
    show (d.handles ++ [(name, Index.new)]).length = _
    rw [List.length_append]
    rfl
  have hrun := reopening_makes_no_difference_partial al hal hempty as hall hdist hfit hdesc hsz
  have h1 := actions_on_disk al name as created h Index.new _ _ hh hv hrun
  rw [hlen] at h1
  have hkeep : runActions al ⟨Index.new, []⟩ ((Action.calls as).map .call) = .ok (runOps al ⟨Index.new, []⟩ (Action.calls as)) := by
    generalize Action.calls as = ops
    generalize (⟨Index.new, []⟩ : TdmsFile) = t
    induction ops generalizing t with
    | nil => rfl
    | cons op ops ih => rw [runOps_cons]; exact ih _
  have h2 := actions_on_disk al name ((Action.calls as).map .call) created h Index.new _ _ hh hv hkeep
  have hod : ∀ (ops : List Op) (n : Nat), Action.onDisk name h n (ops.map .call) = (ops.map (.call h), h) := by
    intro ops n
    induction ops with
    | nil => rfl
    | cons op ops ih =>
      show ((.call h op :: (Action.onDisk name h n (ops.map .call)).1, (Action.onDisk name h n (ops.map .call)).2) : _ × _) = _
      rw [ih]
      rfl
  rw [hod] at h2
  refine ⟨?_, ?_, ?_⟩
  · exact h1.1.trans h2.1.symm
  · exact h1.2.trans h2.2.symm
  · have := h2.1
    show (kept.view h).isSome = true
    exact Option.isSome_iff_exists.mpr ⟨_, this⟩

/-- No files. -/
def emptyDisk : Disk Nat := ⟨fun _ => none, []⟩

/-- Read `u16` values through an open file. -/
def Disk.u16s (d : Disk Nat) (h : Nat) (channel : String) (n : Nat) : Option (R (List STy.u16.Val)) :=
  (d.view h).map (fun t => t.u16s channel n)

/-- A file is created and written, loaded by a second program, and written again; another file is created in between. -/
def sharedCalls : List (DiskCall Nat) :=
  [.create 0 none, .call 0 (writeU16 ["a"] [1, 2]), .load 0 none, .create 1 none, .call 0 (writeU16 ["b"] [3, 4]),
    .load 7 none, .call 2 (writeU16 ["a"] [9]), .load 0 none]

/-- The example for C62 and C63: the reader (number 1) sees what it saw before, the one that loads later (number 3) sees
    everything, the other file has its own contents, and the file that does not exist is not there. -/
theorem sharedCalls_example :
    (emptyDisk.run anyAlloc (sharedCalls.take 3)).u16s 1 "a" 3 = some (.ok (vals16 [1, 2, 0])) ∧
    (∀ c ∈ sharedCalls.drop 3, Kept 0 c) ∧ (∀ c ∈ sharedCalls.drop 3, c.through 1 = none) ∧
    Alone anyAlloc 0 0 (emptyDisk.run anyAlloc (sharedCalls.take 1)) (sharedCalls.drop 1) ∧
    (emptyDisk.run anyAlloc sharedCalls).u16s 1 "a" 3 = some (.ok (vals16 [1, 2, 0])) ∧
    (emptyDisk.run anyAlloc sharedCalls).u16s 3 "b" 3 = some (.ok (vals16 [3, 4, 0])) ∧
    (emptyDisk.run anyAlloc sharedCalls).u16s 2 "a" 3 = some (.ok (vals16 [9, 0, 0])) ∧
    (emptyDisk.run anyAlloc sharedCalls).files 7 = none := by
  refine ⟨by decide +kernel, ?_, ?_, ?_, by decide +kernel, by decide +kernel, by decide +kernel, by decide +kernel⟩
  · intro c hc
    simp only [sharedCalls, List.drop_succ_cons, List.drop_zero, List.mem_cons, List.not_mem_nil, or_false] at hc
    rcases hc with rfl | rfl | rfl | rfl | rfl
    · intro h; cases h
    all_goals exact True.intro
  · intro c hc
    simp only [sharedCalls, List.drop_succ_cons, List.drop_zero, List.mem_cons, List.not_mem_nil, or_false] at hc
    rcases hc with rfl | rfl | rfl | rfl | rfl <;> rfl
  · refine ⟨fun _ => .inl ⟨_, rfl⟩, fun _ => .inr ⟨_, rfl⟩, fun h => ?_, fun _ => .inl ⟨_, rfl⟩, fun h => ?_, fun h => ?_,
      fun _ => .inr ⟨_, rfl⟩, trivial⟩
    · cases h
    · cases h
    · refine absurd h (by decide +kernel)

/-- C63 does not extend to several programs that write. The second one loaded the file before the first one wrote `b`.
    Both writes succeed; then the second program reads the data of `b` when it asks for what it has just written to `c`. (What a
    later load shows is right.) -/
theorem two_writers_counterexample :
    let calls : List (DiskCall Nat) := [.create 0 none, .call 0 (writeU16 ["a"] [1, 2]), .load 0 none,
      .call 0 (writeU16 ["b"] [3, 4])]
    let d := emptyDisk.run anyAlloc calls
    let r := d.step anyAlloc (.call 1 (writeU16 ["c"] [5, 6]))
    r.1 = .ok () ∧ r.2.u16s 1 "c" 2 = some (.ok (vals16 [3, 4])) ∧
    (r.2.step anyAlloc (.load 0 none)).2.u16s 2 "c" 2 = some (.ok (vals16 [5, 6])) := by
  refine ⟨?_, ?_, ?_⟩ <;> decide +kernel

/-- The guard of C63 is needed: `create` empties a file that is open. -/
theorem created_anew_counterexample :
    let calls : List (DiskCall Nat) := [.create 0 none, .call 0 (writeU16 ["a"] [1, 2]), .load 0 none]
    (emptyDisk.run anyAlloc calls).u16s 1 "a" 2 = some (.ok (vals16 [1, 2])) ∧
    (emptyDisk.run anyAlloc (calls ++ [.create 0 none])).u16s 1 "a" 2 = some (R.err (.ioError .unexpectedEof)) := by
  refine ⟨?_, ?_⟩ <;> decide +kernel

/-- The example for C64: the history of `reopenOps`, with the file closed and loaded again between all calls. -/
theorem reopening_example :
    runActions anyAlloc ⟨Index.new, []⟩ (reopenOps.flatMap (fun op => [.reopen, .call op, .reopen]))
      = .ok (session reopenOps) := by
  have hc : Action.calls (reopenOps.flatMap (fun op => [.reopen, .call op, .reopen])) = reopenOps := rfl
  obtain ⟨h1, h2, h3, h4, _⟩ := reopenOps_reopens
  have := reopening_makes_no_difference_partial anyAlloc (fun _ => rfl) (t := ⟨Index.new, []⟩) rfl
    (reopenOps.flatMap (fun op => [.reopen, .call op, .reopen])) (by rw [hc]; exact h1) (by rw [hc]; exact h2)
    (by rw [hc]; exact h3) (by rw [hc]; exact h4) (by rw [hc]; decide +kernel)
  rw [hc] at this
  exact this

/-- The same in a file system in which another file is open. -/
theorem reopening_on_disk_example :
    let d := (emptyDisk.step anyAlloc (.create 5 none)).2
    let created := (d.step anyAlloc (.create 0 none)).2
    let calls := Action.onDisk 0 1 2 (reopenOps.flatMap (fun op => [.reopen, .call op, .reopen]))
    calls.2 = 2 * reopenOps.length + 1 ∧ (created.run anyAlloc calls.1).files 0 = some (session reopenOps).bytes := by
  intro d created calls
  have hh : created.handles[1]? = some (0, Index.new) := rfl
  have hv : created.view 1 = some ⟨Index.new, []⟩ := rfl
  have hl : created.handles.length = 2 := rfl
  have h := actions_on_disk anyAlloc 0 _ created 1 Index.new _ _ hh hv reopening_example
  rw [hl] at h
  obtain ⟨_, h2⟩ := h
  refine ⟨rfl, ?_⟩
  rw [← h2]

/-- C64 is false in full: two writes to the same channel succeed, but the file cannot be loaded after them (defect 1). -/
theorem reopening_counterexample :
    runActions anyAlloc ⟨Index.new, []⟩ [.call (writeU16 ["a"] [1, 2]), .call (writeU16 ["a"] [3, 4]), .reopen]
      = R.err (.ioError .unexpectedEof) := by
  decide +kernel

end Tedium
