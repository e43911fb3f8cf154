import Verif.Props.Copy
import Verif.Props.Grammar
import Verif.Props.Naming

/-! # C94: which files can be copied, exactly -/

namespace Tedium
open SegSpec WriteSpec Library

namespace Library

/-- The names that are found in a path have no slashes. -/
theorem parsePath_names {p : Text} {g c : Option Text} (h : parsePath p = .ok (g, c)) :
    (∀ x, g = some x → '/' ∉ x) ∧ (∀ x, c = some x → '/' ∉ x) := by
  rcases parsePath_coverage p with ⟨o, ho⟩ | hs | he
  · have hp := parsePath_denotes ho
    rw [h] at hp
    injection hp with hp
    injection hp with h1 h2
    subst h1
    subst h2
    cases ho with
    | root => exact ⟨nofun, nofun⟩
    | group hg => exact ⟨fun x hx => by cases hx; exact hg, nofun⟩
    | channel hg hc => exact ⟨fun x hx => by cases hx; exact hg, fun x hx => by cases hx; exact hc⟩
  · rw [parsePath_stumbles hs] at h
    cases h
  · rw [he] at h
    cases h

theorem collectGroups_names : ∀ (ps : List Text) (m m' : SMap Unit), (∀ g ∈ SMap.keys m, '/' ∉ g) → TdmsFile.collectGroups m ps = .ok m' →
    ∀ g ∈ SMap.keys m', '/' ∉ g
  | [], m, m', hm, h => by cases h; exact hm
  | p :: ps, m, m', hm, h => by
    unfold TdmsFile.collectGroups at h
    cases hp : pathGroupName p with
    | error e => rw [hp] at h; cases h
    | ok o =>
      rw [hp] at h
      cases o with
      | none => exact collectGroups_names ps m m' hm h
      | some x =>
        refine collectGroups_names ps _ m' ?_ h
        intro g hg
        have hx : '/' ∉ x := by
          unfold pathGroupName at hp
          cases hq : parsePath p with
          | ok r =>
            obtain ⟨a, b⟩ := r
            rw [hq] at hp
            injection hp with hp
            exact (parsePath_names hq).1 x hp
          | error e =>
            rw [hq] at hp
            cases e <;> cases hp
        obtain ⟨v, hv⟩ := SMap.mem_keys.mp hg
        rw [SMap.get?_insert] at hv
        split at hv
        · rename_i e
          rw [← e]; exact hx
        · exact hm g (SMap.mem_keys.mpr ⟨v, hv⟩)

/-- The groups that are listed have names without slashes. -/
theorem listGroups_names {t : TdmsFile} {gs : List Text} (h : t.listGroups = .ok gs) : ∀ g ∈ gs, '/' ∉ g := by
  unfold TdmsFile.listGroups at h
  cases hc : TdmsFile.collectGroups [] t.index.allPaths with
  | error e => rw [hc] at h; cases h
  | ok m =>
    rw [hc] at h
    cases h
    exact collectGroups_names _ [] m nofun hc

theorem tryFrom_names {p : Text} {c : ChannelPath} (h : ChannelPath.tryFrom p = .ok c) :
    ∃ o : Obj, o.SlashFree ∧ o.toPath.path = c.path := by
  unfold ChannelPath.tryFrom PropertyPath.tryFrom at h
  cases hp : parsePath p with
  | error e => rw [hp] at h; cases h
  | ok r =>
    obtain ⟨g, n⟩ := r
    have hn := parsePath_names hp
    rw [hp] at h
    have hof : ∀ q : PropertyPath, ChannelPath.ofPropertyPath q = .ok c → c.path = q.path := by
      intro q hq
      unfold ChannelPath.ofPropertyPath at hq
      split at hq
      · cases hq
      · cases hq; rfl
    cases g with
    | none =>
      cases n with
      | none => exact ⟨.root, trivial, (hof PropertyPath.file h).symm⟩
      | some n => cases h
    | some g =>
      cases n with
      | none => exact ⟨.group g, hn.1 g rfl, (hof (PropertyPath.group g) h).symm⟩
      | some n => exact ⟨.channel g n, ⟨hn.1 g rfl, hn.2 n rfl⟩, (hof (PropertyPath.channel g n) h).symm⟩

theorem filterChannels_names : ∀ {ps : List Text} {cs : List ChannelPath}, TdmsFile.filterChannels ps = .ok cs →
    ∀ c ∈ cs, ∃ o : Obj, o.SlashFree ∧ o.toPath.path = c.path
  | [], cs, h => by cases h; exact nofun
  | p :: ps, cs, h => by
    unfold TdmsFile.filterChannels at h
    cases hp : ChannelPath.tryFrom p with
    | ok c =>
      rw [hp] at h
      cases hr : TdmsFile.filterChannels ps with
      | error e => rw [hr] at h; cases h
      | ok cs' =>
        rw [hr] at h
        cases h
        intro d hd
        rcases List.mem_cons.mp hd with rfl | hd
        · exact tryFrom_names hp
        · exact filterChannels_names hr d hd
    | error e =>
      rw [hp] at h
      cases e with
      | err e => exact filterChannels_names h
      | panic p => cases h
      | hang => cases h

theorem collect_mem {α β : Type} {f : α → R (List β)} : ∀ {xs : List α} {ys : List β}, collect f xs = .ok ys →
    ∀ y ∈ ys, ∃ x ∈ xs, ∃ zs, f x = .ok zs ∧ y ∈ zs
  | [], ys, h => by cases h; exact nofun
  | x :: xs, ys, h => by
    unfold collect at h
    cases hx : f x with
    | error e => rw [hx] at h; cases h
    | ok a =>
      rw [hx] at h
      cases hr : collect f xs with
      | error e => rw [hr] at h; cases h
      | ok b =>
        rw [hr] at h
        cases h
        intro y hy
        rcases List.mem_append.mp hy with hy | hy
        · exact ⟨x, List.mem_cons_self, a, hx, hy⟩
        · obtain ⟨x', h1, h2⟩ := collect_mem hr y hy
          exact ⟨x', List.mem_cons_of_mem _ h1, h2⟩

/-- The calls with which a file is copied name no object with a slash in its name. -/
theorem copyOf_tidy {al : Alloc} {tyOf : ChannelPath → STy} {fill : (ty : STy) → ty.Val} {t : TdmsFile} {cops : List Op}
    (h : copyOf al tyOf fill t = .ok cops) : ∀ op ∈ cops, Tidy op := by
  unfold copyOf at h
  cases hg : t.listGroups with
  | error e => rw [hg] at h; cases h
  | ok gs =>
  rw [hg] at h
  cases hc : collect (fun g => t.listChannelsInGroup (.group g)) gs with
  | error e =>
    change (do let channels ← collect (fun g => t.listChannelsInGroup (.group g)) gs; _) = _ at h
    rw [hc] at h; cases h
  | ok cs =>
  change (do let channels ← collect (fun g => t.listChannelsInGroup (.group g)) gs; _) = _ at h
  rw [hc] at h
  cases hs : collect (fun c => copySamples al t (tyOf c) (fill _) c) cs with
  | error e =>
    change (do let samples ← collect (fun c => copySamples al t (tyOf c) (fill _) c) cs; _) = _ at h
    rw [hs] at h; cases h
  | ok samples =>
  change (do let samples ← collect (fun c => copySamples al t (tyOf c) (fill _) c) cs; _) = _ at h
  rw [hs] at h
  cases h
  have hprops : ∀ (path : PropertyPath) (o : Obj), o.SlashFree → o.toPath.path = path.path → ∀ op ∈ copyProperties t path, Tidy op := by
    intro path o h1 h2 op hop
    unfold copyProperties at hop
    split at hop
    · cases hop
    · cases List.mem_singleton.mp hop
      exact ⟨o, h1, by
        cases path
        rw [← PropertyPath.mk.injEq] at h2
        exact h2⟩
  have hchan : ∀ c ∈ cs, ∃ o : Obj, o.SlashFree ∧ o.toPath.path = c.path := by
    intro c hcm
    obtain ⟨g, _, zs, h1, h2⟩ := collect_mem hc c hcm
    exact filterChannels_names h1 c h2
  intro op hop
  rcases List.mem_append.mp hop with hop | hop
  · rcases List.mem_append.mp hop with hop | hop
    · rcases List.mem_append.mp hop with hop | hop
      · exact hprops .file .root trivial rfl op hop
      · obtain ⟨g, hgm, hop⟩ := List.mem_flatMap.mp hop
        exact hprops (.group g) (.group g) (listGroups_names hg g hgm) rfl op hop
    · obtain ⟨c, hcm, hop⟩ := List.mem_flatMap.mp hop
      obtain ⟨o, h1, h2⟩ := hchan c hcm
      exact hprops c.inner o h1 h2 op hop
  · obtain ⟨c, hcm, zs, h1, h2⟩ := collect_mem hs op hop
    have : ∃ ty vals, op = Op.write .little ty [c] vals .contigious := by
      unfold copySamples at h1
      cases hl : t.channelLength c with
      | error e => rw [hl] at h1; cases h1
      | ok n =>
        rw [hl] at h1
        cases n with
        | none => cases h1; cases h2
        | some n =>
          change (if n = 0 then _ else _) = _ at h1
          split at h1
          · cases h1; cases h2
          · cases hr : t.readChannelFrom ((tyOf c).storage al) c 0 (List.replicate n (fill _)) with
            | error e => rw [hr] at h1; cases h1
            | ok vals =>
              rw [hr] at h1
              cases h1
              exact ⟨_, _, List.mem_singleton.mp h2⟩
    obtain ⟨ty, vals, rfl⟩ := this
    intro d hd
    cases List.mem_singleton.mp hd
    exact hchan c hcm

/-- If the copy answers for the properties of each object as the store does, no object has a slash in its name. -/
theorem tidy_of_copy {al : Alloc} {tyOf : ChannelPath → STy} {fill : (ty : STy) → ty.Val} {t : TdmsFile} {cops : List Op}
    (h : copyOf al tyOf fill t = .ok cops) {s : Store}
    (hs : ∀ path, s.Answers al (.properties path) ((Query.properties path).run al (runOps al ⟨Index.new, []⟩ cops))) (p : Text)
    (hp : s.objects p) : ∃ o : Obj, o.SlashFree ∧ o.toPath.path = p := by
  obtain ⟨ps, h1, _⟩ := (hs ⟨p⟩).1 hp
  have hhas : (runOps al ⟨Index.new, []⟩ cops).Has p := by
    intro hn
    injection h1 with h1
    injection h1 with h1
    rw [hn] at h1
    cases h1
  rcases history_objects hhas with h2 | ⟨op, hop, hm⟩
  · exact absurd rfl h2
  · have ht := copyOf_tidy h op hop
    cases op with
    | props e path ps =>
      obtain ⟨o, h3, h4⟩ := ht
      exact ⟨o, h3, by rw [h4]; exact (show p = path.path from hm).symm⟩
    | write e ty chs vals layout =>
      obtain ⟨c, hc, e⟩ := List.mem_map.mp (show p ∈ chs.map ChannelPath.path from hm)
      obtain ⟨o, h3, h4⟩ := ht c hc
      exact ⟨o, h3, h4.trans e⟩

end Library

/-- **C94, exactly, for what the library wrote.** The open file is one that the library has made with the calls `ops`, as in C88. It can be
    copied (nothing fails, the copy answers every question as the store does, and can be opened again) if and only if all names
    are without slashes. -/
theorem copy_history_iff (al : Alloc) (hal : Generous al) {new : TdmsFile} (hnew : TdmsFile.create al = .ok new) (ops : List Op)
    (hcomp : Compatible Last.none ops)
    (htypes : ∀ op ∈ ops, ∀ op' ∈ ops, ∀ p, Names p op → Names p op' → WriteSpec.typeOf op = WriteSpec.typeOf op')
    (hsz : (runOps al new ops).bytes.length < 2 ^ 63) (hfit : ∀ op ∈ ops, OpFits op)
    (hchan : ∀ op ∈ ops, ∀ c : ChannelPath, Names c.path op → ∃ g n, c = ChannelPath.new g n)
    (hfew : ∀ p, (ops.flatMap (Op.propsFor p)).length < 2 ^ 32)
    (typeOf : ChannelPath → STy) (fill : (ty : STy) → ty.Val)
    (hty : ∀ op ∈ ops, ∀ c : ChannelPath, Names c.path op → WriteSpec.typeOf op = some (typeOf c))
    (hcsz : ∀ cops, copyOf al typeOf fill (runOps al new ops) = .ok cops → (runOps al new cops).bytes.length < 2 ^ 63) :
    (∃ cops, copyOf al typeOf fill (runOps al new ops) = .ok cops ∧ AllSucceed al new cops ∧
        (∀ q : Query, q.Apart → (storeOf ops).Answers al q (q.run al (runOps al new cops))) ∧
        TdmsFile.new al (runOps al new cops).bytes = .ok (runOps al new cops))
      ↔ ∀ op ∈ ops, Tidy op := by
  constructor
  · rintro ⟨cops, h1, _, h3, _⟩ op hop
    rw [created_eq hnew] at h1 h3
    have hall : ∀ p, (storeOf ops).objects p → ∃ o : Obj, o.SlashFree ∧ o.toPath.path = p :=
      tidy_of_copy h1 fun path => h3 _ trivial
    cases op with
    | props e path ps =>
      obtain ⟨o, h4, h5⟩ := hall path.path ((store_objects ops _).mpr ⟨_, hop, rfl⟩)
      refine ⟨o, h4, ?_⟩
      cases path
      rw [← PropertyPath.mk.injEq] at h5
      exact h5
    | write e ty chs vals layout =>
      exact fun c hc => hall c.path ((store_objects ops _).mpr ⟨_, hop, List.mem_map_of_mem hc⟩)
  · intro htidy
    obtain ⟨cops, h1, h2⟩ := copy_history_partial al hal hnew ops hcomp htypes hsz hfit htidy hchan hfew typeOf fill hty
    exact ⟨cops, h1, h2 (hcsz cops h1)⟩

/-- **C94, exactly, for files that exist.** The open file is as in C90, whoever wrote it; only objects have values, and only channels
    have samples. It can be copied if and only if all its objects have names without slashes. -/
theorem copy_existing_iff (al : Alloc) {fs : List FileSegment} {t : TdmsFile} {ty : Text → STy} {last : Last}
    (he : Existing al fs t ty last) (hsz : t.bytes.length < 2 ^ 63) {s : Store}
    (hs : s = storeIn ty t.bytes (fs.map FileSegment.segment))
    (hvalues : ∀ p n v, s.value p n = some v → s.objects p)
    (hsamples : ∀ p ty vals, s.content p = some ⟨ty, vals⟩ → s.objects p ∧ (∃ g c, p = (ChannelPath.new g c).path) ∧
      Format.ordinaryTy ty = true ∧ vals ≠ [])
    (fill : (ty : STy) → ty.Val) {new : TdmsFile} (hnew : TdmsFile.create al = .ok new)
    (hcsz : ∀ cops, copyOf al (fun c => ty c.path) fill t = .ok cops → (runOps al new cops).bytes.length < 2 ^ 63) :
    (∃ cops, copyOf al (fun c => ty c.path) fill t = .ok cops ∧ AllSucceed al new cops ∧
        (∀ q : Query, q.Apart → s.Answers al q (q.run al (runOps al new cops))))
      ↔ ∀ p, s.objects p → ∃ o : Obj, o.SlashFree ∧ o.toPath.path = p := by
  constructor
  · rintro ⟨cops, h1, _, h3⟩
    rw [created_eq hnew] at h3
    exact tidy_of_copy h1 fun path => h3 _ trivial
  · intro htidy
    have hP : s.Plain := ⟨htidy, hvalues, hsamples⟩
    subst hs
    obtain ⟨cops, h1, h2⟩ := copy_existing_partial al he hsz hP fill hnew
    obtain ⟨h3, h4, _⟩ := h2 (hcsz cops h1)
    exact ⟨cops, h1, h3, h4⟩

/-- The last hypothesis of both theorems holds for `rescueOps` and for `windowFile`, and so do both sides (the other hypotheses are
    `rescueOps_hypotheses`, `windowFile_existing` and `windowFile_plain`). -/
theorem copy_iff_example :
    (∀ cops, copyOf anyAlloc (fun _ => .u16) anyVal (session rescueOps) = .ok cops → (session cops).bytes.length < 2 ^ 63) ∧
    (∀ op ∈ rescueOps, Tidy op) ∧
    (∀ cops, copyOf anyAlloc (fun c => windowTypes c.path) anyVal windowOpen = .ok cops → (session cops).bytes.length < 2 ^ 63) ∧
    (∀ p, (storeIn windowTypes windowOpen.bytes (windowFile.map FileSegment.segment)).objects p →
      ∃ o : Obj, o.SlashFree ∧ o.toPath.path = p) := by
  refine ⟨fun cops h => ?_, rescueOps_hypotheses.2.2.2.2.1, fun cops h => ?_, windowFile_plain.tidy⟩
  · have e : rescueCopy = cops := by unfold rescueCopy; rw [h]; rfl
    rw [← e]; exact rescueOps_hypotheses.2.2.2.2.2.2.2.2
  · have e : windowCopy = cops := by unfold windowCopy; rw [h]; rfl
    rw [← e]; exact windowFile_copied.2.1

/-- And for `slashOps`, of which neither side is true. -/
theorem copy_iff_slash_example :
    (∀ op ∈ slashOps, ∀ p, Names p op → WriteSpec.typeOf op = some .u16) ∧
    (session slashOps).bytes.length < 2 ^ 63 ∧
    (∀ op ∈ slashOps, ∀ c : ChannelPath, Names c.path op → ∃ g n, c = ChannelPath.new g n) ∧
    (∀ p, (slashOps.flatMap (Op.propsFor p)).length < 2 ^ 32) ∧
    (session (callsOf (copyOf anyAlloc (fun _ => .u16) anyVal (session slashOps)))).bytes.length < 2 ^ 63 ∧
    ¬ ∀ op ∈ slashOps, Tidy op := by
  refine ⟨?_, by decide +kernel, ?_, ?_, by decide +kernel, ?_⟩
  · intro op hop p hn
    simp only [slashOps, List.mem_cons, List.not_mem_nil, or_false] at hop
    rcases hop with rfl | rfl
    · exact absurd hn id
    · rfl
  · intro op hop c hn
    simp only [slashOps, List.mem_cons, List.not_mem_nil, or_false] at hop
    rcases hop with rfl | rfl
    · exact absurd hn id
    · obtain ⟨d, hd, e⟩ := hn
      cases List.mem_singleton.mp hd
      refine ⟨"g".toList, "a".toList, ?_⟩
      obtain ⟨⟨p⟩⟩ := c
      exact congrArg (fun x => ChannelPath.mk ⟨x⟩) e.symm
  · intro p
    refine Nat.lt_of_le_of_lt (m := 1) ?_ (by decide)
    show (((if (PropertyPath.group "a/b".toList).path = p then [("n".toList, PropertyValue.i32 5)] else []) ++ ([] ++ [])) : List _).length ≤ 1
    split <;> decide
  · intro h
    obtain ⟨o, h1, h2⟩ := h _ List.mem_cons_self
    have hk : pathGroupName (PropertyPath.group "a/b".toList).path = .ok o.groupOf := by
      rw [← h2]; exact pathGroupName_toPath h1
    have hk' : pathGroupName (PropertyPath.group "a/b".toList).path = .ok none := by decide +kernel
    rw [hk'] at hk
    injection hk with hk
    cases o with
    | root => exact absurd (congrArg PropertyPath.path h2) (by decide +kernel)
    | group g => cases hk
    | channel g c => cases hk

end Tedium
