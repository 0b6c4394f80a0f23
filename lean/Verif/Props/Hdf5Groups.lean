import Verif.Proofs.Hdf5GroupsText
import Verif.Props.Hdf5Files

/-!
# C87: groups of layers in HDF5 files
-/

namespace F3D
namespace Props
open Ogawa Og FieldIO
open Metadata (Dict Meta)
open _root_.F3D.Hdf5
open _root_.F3D.MappingIO (kMapping)
open _root_.F3D.Files (removeUniqueId intName Loaded FieldClass layerPath Listing)

variable {M : Type}

/-- A new object that has created a file. -/
def newFile : GOut M := ⟨Hdf5.Out.new.create true, []⟩

/-- The name of a group: not empty, without NUL, and not the name of the mark in the file. -/
structure GroupName (n : Name) : Prop where
  ne : n ≠ []
  nul : (0 : UInt8) ∉ n
  mark : n ≠ kIsMembership

/-- What a user may ask for: the file is used as in C80, groups have names, and members are named by words. -/
structure GroupUse (C : MapIO M) (cs : List (UCall M)) : Prop where
  session : ∀ c, .file c ∈ cs → (∃ w, c = .write w) ∨ ∃ m, c = .global m
  fits : ∀ w, .file (.write w) ∈ cs → Fits C w
  groups : ∀ gs, .add gs ∈ cs → ∀ p ∈ gs, GroupName p.1 ∧ ∀ m ∈ p.2, m.Fits

theorem call_file {cs : List (UCall M)} {c : Hdf5.Call M} (h : GCall.file c ∈ cs.map UCall.call) : .file c ∈ cs := by
  obtain ⟨u, hu, e⟩ := List.mem_map.1 h
  cases u with
  | file d => cases e; exact hu
  | add gs => cases e
  | writeGroups => cases e

theorem use_session {C : MapIO M} {cs : List (UCall M)} (U : GroupUse C cs) : GSession (cs.map UCall.call) :=
  fun c hc => U.session c (call_file hc)

theorem use_names {C : MapIO M} {cs : List (UCall M)} (U : GroupUse C cs) : GNames (cs.map UCall.call) := fun w hw => by
  have := U.fits w (call_file hw)
  exact ⟨this.layer.step, this.part.1, this.part.2⟩

theorem use_run {C : MapIO M} {cs : List (UCall M)} (U : GroupUse C cs) :
    ∃ rs o, Hdf5.Out.run C (Hdf5.Out.new.create true) (fileCallsOf (cs.map UCall.call)) = some (rs, o) ∧ o.isOpen = true := by
  obtain ⟨rs, o, hs, h1, S, -⟩ := session_sim C (fileCallsOf (cs.map UCall.call))
    (fun c hc => U.session c (call_file (mem_files.1 hc))) (fun w hw => U.fits w (call_file (mem_files.1 hw))) []
  exact ⟨rs, o, h1, S.isOpen⟩

theorem beside_new : Beside ([] : List (Name × Obj)) (Hdf5.Out.new.create true : Hdf5.Out M) (newFile : GOut M).out :=
  ⟨rfl, ⟨_, [], [], rfl, rfl, by simp, by simp⟩, by intro p hp; cases hp⟩

theorem members_some (n : Name) : ∀ (a b : List (UCall M)), membersOf n a ≠ none → ∃ ms, membersOf n (a ++ b) = some ms
  | [], b, h => absurd rfl h
  | .file c :: a, b, h => members_some n a b h
  | .writeGroups :: a, b, h => members_some n a b h
  | .add gs :: a, b, h => by
    rw [List.cons_append, membersOf]
    rw [membersOf] at h
    split
    · next hf => rw [hf] at h; exact members_some n a b h
    · exact ⟨_, rfl⟩

/-- The numbers of the calls and the state after them, with groups. -/
theorem group_run {C : MapIO M} {pre post : List (UCall M)} (U : GroupUse C (pre ++ .writeGroups :: post))
    (hpre : .writeGroups ∉ pre) (hne : ∃ n, membersOf n pre ≠ none) :
    ∃ rs o rs' o' g, Hdf5.Out.run C (Hdf5.Out.new.create true)
        (fileCallsOf ((pre ++ .writeGroups :: post).map UCall.call)) = some (rs, o) ∧
      newFile.run C ((pre ++ .writeGroups :: post).map UCall.call) = some (rs', o') ∧ o.isOpen = true ∧
      rs'[pre.length]? = some .ok ∧ Increasing g ∧ (∀ p ∈ g, GroupName p.1) ∧
      (∀ n, g.get n = (membersOf n pre).map textOf) ∧ o'.groups ≠ [] ∧
      Beside [(kMembership, .group ((kIsMembership, .str [49]) :: g.map fun p => (p.1, .str p.2)) [])] o o'.out := by
  have Up : GroupUse C pre := ⟨fun c hc => U.session c (by simp [hc]), fun w hw => U.fits w (by simp [hw]),
    fun gs hg => U.groups gs (by simp [hg])⟩
  obtain ⟨rs, o, hr, hopen⟩ := use_run U
  obtain ⟨rs1, o1, hr1, hopen1⟩ := use_run Up
  have hw : GCall.writeGroups ∉ pre.map (UCall.call (M := M)) := by
    intro h
    obtain ⟨u, hu, e⟩ := List.mem_map.1 h
    cases u with
    | writeGroups => exact hpre hu
    | file c => cases e
    | add gs => cases e
  obtain ⟨rs1', o1', e1, B1, e2, -⟩ := run_without C (pre.map UCall.call) _ newFile beside_new (use_session Up) (use_names Up) hw
    rs1 o1 hr1
  have hg := grun_groups C _ _ _ _ e1
  have hget := fun n => get_after n pre ([] : Groups) trivial
  have hinc : Increasing o1'.groups := by rw [hg]; exact (hget []).2.1
  have hgn : ∀ n, o1'.groups.get n = (membersOf n pre).map textOf := by
    intro n
    rw [hg]
    refine (hget n).1.trans ?_
    cases membersOf n pre with
    | none => rfl
    | some ms => simp [more, Dict.get]
  have hnames : ∀ p ∈ o1'.groups, GroupName p.1 := by
    intro p hp
    rw [hg] at hp
    rcases (hget []).2.2 p hp with ⟨gs, q, h1, h2, h3⟩ | ⟨q, h1, -⟩
    · rw [← h3]; exact (Up.groups gs h1 q h2).1
    · cases h1
  have hnn : o1'.groups ≠ [] := by
    obtain ⟨n, hn⟩ := hne
    intro h
    have := hgn n
    rw [h] at this
    cases hm : membersOf n pre with
    | none => exact hn hm
    | some ms => rw [hm] at this; cases this
  obtain ⟨r, ex2, o2, s1, s2, s3, s4, s5, -, s6⟩ := groups_step C (.inl rfl) B1
  obtain ⟨s7, s8⟩ := s6 rfl hopen1 hnn
  have hwr := groups_written hinc fun p hp => ⟨(hnames p hp).ne, (hnames p hp).nul, (hnames p hp).mark⟩
  rw [hwr] at s7
  unfold groupsObj at s8
  rw [hwr] at s8
  subst s7 s8
  -- the calls after it
  have hsplit : fileCallsOf ((pre ++ .writeGroups :: post).map UCall.call) =
      fileCallsOf (pre.map (UCall.call (M := M))) ++ fileCallsOf (post.map UCall.call) := by
    rw [List.map_append, files_append]; rfl
  have hr2 := hr
  rw [hsplit, orun_append, hr1, Option.bind_some, Option.map_eq_some_iff] at hr2
  obtain ⟨⟨rs2, o3⟩, hr3, hr4⟩ := hr2
  simp only [Prod.mk.injEq] at hr4
  obtain ⟨-, rfl⟩ := hr4
  have Uq : GroupUse C post := ⟨fun c hc => U.session c (by simp [hc]), fun w hw => U.fits w (by simp [hw]),
    fun gs hg => U.groups gs (by simp [hg])⟩
  obtain ⟨rs2', o3', ex', e3, -, -, e4, -, e5⟩ := run_beside C (post.map UCall.call) _ o1 o2 s3 s4 (use_session Uq) (use_names Uq)
    rs2 o3 hr3
  rw [e5 (by simp)] at e4
  have erun : newFile.run C ((pre ++ .writeGroups :: post).map UCall.call) = some (rs1' ++ .ok :: rs2', o3') := by
    rw [List.map_append, grun_append, e1, Option.bind_some, List.map_cons]
    have : UCall.call (M := M) .writeGroups = .writeGroups := rfl
    rw [this, GOut.run, s1]
    simp only [e3, Option.map_some]
  refine ⟨rs, o3, _, o3', o1'.groups, hr, erun, hopen, ?_, hinc, hnames, hgn, ?_, e4⟩
  · rw [List.getElem?_append_right (by rw [e2]; simp)]
    rw [e2]
    simp
  · have hg3 := grun_groups C _ _ _ _ erun
    obtain ⟨n, hn⟩ := hne
    have h3 := (get_after n (pre ++ .writeGroups :: post) ([] : Groups) trivial).1
    intro h
    rw [show (newFile : GOut M).groups = [] from rfl] at hg3
    rw [← hg3, h] at h3
    have : ∃ ms, membersOf n (pre ++ .writeGroups :: post) = some ms := members_some n pre _ hn
    obtain ⟨ms, hms⟩ := this
    rw [hms] at h3
    cases h3

/-- **C87.** Groups that were added before `writeGroupMembership` are in the file: it returns true, and
`readGroupMembership`, whatever else was written before and after, returns true and gives every group its members, in the
order in which they were added, as text. Partitions are named without numbers. Entries of the caller's map for other groups
stay. -/
theorem C87_round_trip (C : MapIO M) (pre post : List (UCall M)) (U : GroupUse C (pre ++ .writeGroups :: post))
    (hpre : .writeGroups ∉ pre) (hne : ∃ n, membersOf n pre ≠ none) :
    ∃ rs o, newFile.run C ((pre ++ .writeGroups :: post).map UCall.call) = some (rs, o) ∧ rs[pre.length]? = some .ok ∧
      ∀ ord, Hdf5.Visits ord → ∀ before : Groups, ∃ after, readGroups ord o.out.root before = some (true, after) ∧
        ∀ n, after.get n = ((membersOf n pre).map fun ms => textOf (ms.map Member.plain)).or (before.get n) := by
  obtain ⟨rs, o, rs', o', g, -, hr, -, hok, hinc, hn, hg, -, B⟩ := group_run U hpre hne
  refine ⟨rs', o', hr, hok, fun ord V before => ?_⟩
  have hfit : ∀ n ms, membersOf n pre = some ms → ∀ m ∈ ms, m.Fits := fun n ms h =>
    members_fit n pre (fun gs hgs p hp => (U.groups gs (by simp [hgs]) p hp).2) ms h
  unfold readGroups
  rw [named_here B.root rfl]
  simp only
  have hperm := V.attrs ((kIsMembership, .str [49]) :: g.map fun p => (p.1, Attr.str p.2))
  obtain ⟨G, e, hG⟩ := attrs_back (fun n => (membersOf n pre).map fun ms => textOf (ms.map Member.plain))
    (ord.attrs ((kIsMembership, .str [49]) :: g.map fun p => (p.1, Attr.str p.2))) before (by
      intro p hp hk
      rw [hperm.mem_iff, List.mem_cons] at hp
      rcases hp with rfl | hp
      · exact absurd rfl hk
      · obtain ⟨q, hq, rfl⟩ := List.mem_map.1 hp
        have hv := get_of_mem hinc hq
        rw [hg, Option.map_eq_some_iff] at hv
        obtain ⟨ms, h1, h2⟩ := hv
        refine ⟨q.2, rfl, ?_, by simp [h1]⟩
        simp only [h1, Option.map_some]
        rw [← h2, Hdf5.cstr_plain _ (text_nul ms (hfit _ ms h1))]
        exact members_back ms (hfit _ ms h1))
  refine ⟨G, by rw [e]; rfl, fun n => ?_⟩
  have hin : (∃ p ∈ g, p.1 = n) ↔ (membersOf n pre).isSome := by rw [Hdf5.get_mem, hg, Option.isSome_map]
  cases hm : membersOf n pre with
  | none =>
    rw [(hG n).2]
    · rfl
    · intro p hp ep
      rw [hperm.mem_iff, List.mem_cons] at hp
      rcases hp with rfl | hp
      · exact ep.symm
      · obtain ⟨q, hq, rfl⟩ := List.mem_map.1 hp
        have := hin.1 ⟨q, hq, ep⟩
        simp [hm] at this
  | some ms =>
    obtain ⟨q, hq, rfl⟩ := hin.2 (by simp [hm])
    rw [(hG q.1).1 ⟨(q.1, .str q.2), hperm.mem_iff.2 (List.mem_cons_of_mem _ (List.mem_map.2 ⟨q, hq, rfl⟩)), rfl⟩ (hn q hq).mark]
    simp [hm]

/-- **C87, the rest of the file** is what it is without the calls about groups. The other calls return the same, the
file lists the same partitions and layers with the same mappings, and every way to read layers gives the same. (HDF5
does not say in which order links are visited: for every order with groups there is one without.) -/
theorem C87_layers_unaffected (C : MapIO M) (cs : List (UCall M)) (U : GroupUse C cs) :
    ∃ rs o rs' o', Hdf5.Out.run C (Hdf5.Out.new.create true) (fileCallsOf (cs.map UCall.call)) = some (rs, o) ∧
      newFile.run C (cs.map UCall.call) = some (rs', o') ∧ rs'.length = cs.length ∧
      fileResultsOf (cs.map UCall.call) rs' = rs ∧ (∀ isVec, o'.out.listing isVec = o.listing isVec) ∧
      ∀ ord, Hdf5.Visits ord → ∃ ord2, Hdf5.Visits ord2 ∧
        ∀ (L F : Type) [FieldClass F] (readMap : Obj → Res L) (i : Hdf5.In L),
          In.openFile ord2 readMap o.root In.new = some (true, i) →
          ∃ i', In.openFile ord readMap o'.out.root In.new = some (true, i') ∧ i'.info = i.info ∧ i'.parts = i.parts ∧
            (∀ p ∈ i.parts, ∀ l, openGroup o'.out.root (layerPath p.name l) = openGroup o.root (layerPath p.name l)) ∧
            ∀ (readField : Name → Name → Obj → Res F) (isVec : Bool) (u l : Name),
              i'.readLayer ord readField isVec u l = i.readLayer ord2 readField isVec u l ∧
              i'.readLayers ord readField isVec u l = i.readLayers ord2 readField isVec u l ∧
              i'.readAll ord readField isVec l = i.readAll ord2 readField isVec l := by
  obtain ⟨rs, o, hr, -⟩ := use_run U
  obtain ⟨rs', o', ex, e1, e2, e3, e4, e5, -⟩ := run_beside C (cs.map UCall.call) [] _ newFile (.inl rfl) beside_new
    (use_session U) (use_names U) rs o hr
  refine ⟨rs, o, rs', o', hr, e1, by rw [e5]; simp, e2, fun v => by rw [e4.same]; rfl, fun ord V => ?_⟩
  refine ⟨orderFor ord o.root o'.out.root, visits_for e4.root V, fun L F _ readMap i hi => ?_⟩
  obtain ⟨hp, hf⟩ := open_names e4.root V hi
  refine ⟨i.over o'.out.root, by rw [extra_open e4.root V, hi]; rfl, rfl, rfl, fun p hpi l => extra_layer e4.root (hp p hpi) l,
    fun readField isVec u l => ⟨?_, ?_, ?_⟩⟩
  · exact extra_read e4.root ord hp hf readField isVec u l
  · exact extra_readLayers e4.root ord hp hf readField isVec u l
  · exact extra_readAll e4.root ord hp hf readField isVec l

/-- **C87, without `writeGroupMembership`** nothing about groups is in the file, and the caller's map stays. -/
theorem C87_not_written (C : MapIO M) (cs : List (UCall M)) (U : GroupUse C cs) (h : .writeGroups ∉ cs) :
    ∃ rs o, newFile.run C (cs.map UCall.call) = some (rs, o) ∧
      ∀ ord (before : Groups), readGroups ord o.out.root before = some (false, before) := by
  obtain ⟨rs, o, hr, -⟩ := use_run U
  have hw : GCall.writeGroups ∉ cs.map (UCall.call (M := M)) := by
    intro hm
    obtain ⟨u, hu, e⟩ := List.mem_map.1 hm
    cases u with
    | writeGroups => exact h hu
    | file c => cases e
    | add gs => cases e
  obtain ⟨rs', o', e1, B, -, -⟩ := run_without C (cs.map UCall.call) _ newFile beside_new (use_session U) (use_names U) hw rs o hr
  refine ⟨rs', o', e1, fun ord before => ?_⟩
  unfold readGroups
  rw [named_not B.root]

/-- **C87, once.** A second `writeGroupMembership` on the same file returns false and changes nothing, although groups may
have been added in between. -/
theorem C87_second_write_fails (C : MapIO M) (pre post : List (UCall M)) (U : GroupUse C (pre ++ .writeGroups :: post))
    (hpre : .writeGroups ∉ pre) (hne : ∃ n, membersOf n pre ≠ none) :
    ∃ rs o, newFile.run C ((pre ++ .writeGroups :: post).map UCall.call) = some (rs, o) ∧
      o.step C .writeGroups = (.failed, o) := by
  obtain ⟨rs, o, rs', o', g, -, hr, hopen, -, -, -, -, hgr, B⟩ := group_run U hpre hne
  refine ⟨rs', o', hr, ?_⟩
  have ho : o'.out.isOpen = true := by rw [B.same]; exact hopen
  simp only [GOut.step]
  rw [if_pos ho, writeGroups_again o'.groups _ B.root, if_neg hgr]

/-- **Disagreement**: creating another file with the same object does not forget the groups: they are written into the new
file as well. -/
theorem C87_create_keeps_groups (C : MapIO M) (o : GOut M) (hi : Increasing o.groups) (hn : ∀ p ∈ o.groups, GroupName p.1)
    (hne : o.groups ≠ []) :
    ∃ o1 o2 G, o.step C (.file (.create true)) = (.ok, o1) ∧ o1.step C .writeGroups = (.ok, o2) ∧
      named kMembership o2.out.root.links = some G ∧ ∀ n t, o.groups.get n = some t → named n G.attrs = some (.str t) := by
  have hwr := groups_written hi fun p hp => ⟨(hn p hp).ne, (hn p hp).nul, (hn p hp).mark⟩
  have E : Extra [] (o.out.create true).root (o.out.create true).root := ⟨_, [], [], rfl, rfl, by simp, by simp⟩
  obtain ⟨e1, e2⟩ := writeGroups_first o.groups hne E
  refine ⟨{ o with out := o.out.create true },
    { o with out := { o.out.create true with root := (writeGroups o.groups (o.out.create true).root).2 } }, _, rfl, ?_,
    named_here e2 rfl, ?_⟩
  · have : GOut.step C ({ o with out := o.out.create true } : GOut M) .writeGroups =
        ((writeGroups o.groups (o.out.create true).root).1,
          { o with out := { o.out.create true with root := (writeGroups o.groups (o.out.create true).root).2 } }) := rfl
    rw [e1, hwr] at this
    exact this
  · intro n t ht
    unfold groupsObj
    rw [hwr]
    obtain ⟨p, hp, rfl⟩ := (Hdf5.get_mem n o.groups).2 (by simp [ht])
    have hmem : ∀ d : Groups, d.get p.1 = some t → named p.1 (d.map fun p => (p.1, Attr.str p.2)) = some (.str t) := by
      intro d
      induction d with
      | nil => intro h; cases h
      | cons q d ih =>
        obtain ⟨m, w⟩ := q
        intro h
        rw [Dict.get] at h
        rw [List.map_cons, named]
        split at h
        · next e => cases h; rw [if_pos e]
        · next e => rw [if_neg e]; exact ih h
    simp only [Obj.attrs, named]
    rw [if_neg (fun e => (hn p hp).mark e.symm)]
    exact hmem _ ht

theorem tokens_last : ∀ w : Name, w ≠ [] → (32 : UInt8) ∉ w → (58 : UInt8) ∉ w → tokens w = [w]
  | [], h, _, _ => absurd rfl h
  | [x], _, h1, h2 => by
    rw [tokens.eq_def]
    simp only
    rw [if_neg]
    rintro (e | e)
    · exact h1 (by simp [e])
    · exact h2 (by simp [e])
  | x :: y :: w, _, h1, h2 => by
    have hx : ¬ (x = 32 ∨ x = 58) := by
      rintro (e | e)
      · exact h1 (by simp [e])
      · exact h2 (by simp [e])
    have hy : ¬ (y = 32 ∨ y = 58) := by
      rintro (e | e)
      · exact h1 (by simp [e])
      · exact h2 (by simp [e])
    have ih := tokens_last (y :: w) (by simp) (fun h => h1 (by simp [h])) (fun h => h2 (by simp [h]))
    rw [tokens.eq_def]
    simp only [if_neg hx, if_neg hy, ih]

/-- **Disagreement**: members that are added by two calls are put together as they are. If the texts do not end with a
blank, as in "a:x" and "b:y", the file is written without complaint and `readGroupMembership` reads beyond the end of
what it found: undefined behaviour. -/
theorem C87_texts_run_together (C : MapIO M) (n a x b y : Name) (hn : GroupName n) (ha : Word a) (hx : Word x) (hb : Word b)
    (hy : Word y) :
    ∃ o, newFile.run C [.add [(n, a ++ 58 :: x)], .add [(n, b ++ 58 :: y)], .writeGroups] = some ([.ok, .ok, .ok], o) ∧
      ∀ ord, Hdf5.Visits ord → ∀ before : Groups, readGroups ord o.out.root before = none := by
  have eg : Groups.add (Groups.add [] [(n, a ++ 58 :: x)]) [(n, b ++ 58 :: y)] = [(n, a ++ 58 :: x ++ (b ++ 58 :: y))] := by
    simp [Groups.add, Dict.get, Dict.set]
  have hwr := groups_written (g := [(n, a ++ 58 :: x ++ (b ++ 58 :: y))]) trivial (by
    intro p hp
    rw [List.mem_singleton] at hp
    subst hp
    exact ⟨hn.ne, hn.nul, hn.mark⟩)
  have E : Extra [] (Hdf5.Out.new.create true : Hdf5.Out M).root (Hdf5.Out.new.create true : Hdf5.Out M).root :=
    ⟨_, [], [], rfl, rfl, by simp, by simp⟩
  obtain ⟨e1, e2⟩ := writeGroups_first [(n, a ++ 58 :: x ++ (b ++ 58 :: y))] (by simp) E
  rw [hwr] at e1
  unfold groupsObj at e2
  rw [hwr] at e2
  have hrun : newFile.run C [.add [(n, a ++ 58 :: x)], .add [(n, b ++ 58 :: y)], .writeGroups] =
      some ([.ok, .ok, .ok], ⟨{ Hdf5.Out.new.create true with
        root := (writeGroups [(n, a ++ 58 :: x ++ (b ++ 58 :: y))] (Hdf5.Out.new.create true : Hdf5.Out M).root).2 },
        [(n, a ++ 58 :: x ++ (b ++ 58 :: y))]⟩) := by
    have st : GOut.step C (⟨Hdf5.Out.new.create true, [(n, a ++ 58 :: x ++ (b ++ 58 :: y))]⟩ : GOut M) .writeGroups =
        ((writeGroups [(n, a ++ 58 :: x ++ (b ++ 58 :: y))] (Hdf5.Out.new.create true : Hdf5.Out M).root).1,
          ⟨{ Hdf5.Out.new.create true with
            root := (writeGroups [(n, a ++ 58 :: x ++ (b ++ 58 :: y))] (Hdf5.Out.new.create true : Hdf5.Out M).root).2 },
            [(n, a ++ 58 :: x ++ (b ++ 58 :: y))]⟩) := rfl
    rw [e1] at st
    simp only [GOut.run]
    have s1 : GOut.step C (newFile : GOut M) (.add [(n, a ++ 58 :: x)]) =
      (.ok, ⟨Hdf5.Out.new.create true, Groups.add [] [(n, a ++ 58 :: x)]⟩) := rfl
    rw [s1]
    simp only
    have s2 : GOut.step C (⟨Hdf5.Out.new.create true, Groups.add [] [(n, a ++ 58 :: x)]⟩ : GOut M) (.add [(n, b ++ 58 :: y)]) =
      (.ok, ⟨Hdf5.Out.new.create true, Groups.add (Groups.add [] [(n, a ++ 58 :: x)]) [(n, b ++ 58 :: y)]⟩) := rfl
    rw [s2, eg]
    simp only
    rw [st]
    rfl
  refine ⟨_, hrun, fun ord V before => ?_⟩
  unfold readGroups
  rw [named_here e2 rfl]
  simp only [Option.map_eq_none_iff]
  have hbad : ∀ s, Hdf5.cstr s = s → s = a ++ 58 :: x ++ (b ++ 58 :: y) → memberText (tokens s) = none := by
    intro s _ e
    have e' : s = a ++ 58 :: ((x ++ b) ++ 58 :: y) := by rw [e]; simp
    rw [e', tokens_word a 58 _ ha.1 ha.2.1 ha.2.2.1 (.inr rfl), tokens_word (x ++ b) 58 y (by simp [hx.1])
      (by simp [hx.2.1, hb.2.1]) (by simp [hx.2.2.1, hb.2.2.1]) (.inr rfl), tokens_last y hy.1 hy.2.1 hy.2.2.1]
    rfl
  have hnul : (0 : UInt8) ∉ a ++ 58 :: x ++ (b ++ 58 :: y) := by
    simp [ha.2.2.2, hx.2.2.2, hb.2.2.2, hy.2.2.2]
  have hread : ∀ (as : List (Name × Attr)) (g : Groups),
      (n, Attr.str (a ++ 58 :: x ++ (b ++ 58 :: y))) ∈ as →
      (∀ p ∈ as, p = (kIsMembership, .str [49]) ∨ p = (n, Attr.str (a ++ 58 :: x ++ (b ++ 58 :: y)))) →
      readGroupAttrs as g = none := by
    intro as
    induction as with
    | nil => intro g h; cases h
    | cons p as ih =>
      intro g hm hall
      rcases hall p (by simp) with rfl | rfl
      · rw [readGroupAttrs, if_pos rfl]
        rw [List.mem_cons] at hm
        rcases hm with e | hm
        · exact absurd (congrArg Prod.fst e) hn.mark
        · exact ih g hm fun q hq => hall q (by simp [hq])
      · rw [readGroupAttrs, if_neg hn.mark]
        simp only [Hdf5.cstr_plain _ hnul, hbad _ (Hdf5.cstr_plain _ hnul) rfl]
  have hperm := V.attrs ((kIsMembership, .str [49]) :: [(n, a ++ 58 :: x ++ (b ++ 58 :: y))].map fun p => (p.1, Attr.str p.2))
  refine hread _ before (hperm.mem_iff.2 (by simp)) fun p hp => ?_
  have := hperm.mem_iff.1 hp
  simpa using this

theorem drop_all : ∀ l : Name, (46 : UInt8) ∉ l → l.dropWhile (fun x => decide (x ≠ 46)) = []
  | [], _ => rfl
  | c :: l, h => by
    have hc : c ≠ 46 := fun e => h (by simp [e])
    rw [List.dropWhile_cons, if_pos (by simp [hc]), drop_all l fun e => h (by simp [e])]

/-- **C87, names.** The number that the library puts behind the name of a partition is dropped again, and a name without
a dot stays. -/
theorem C87_plain_names (u l : Name) (k : Nat) :
    (Member.plain ⟨intName u k, l⟩ = ⟨u, l⟩) ∧ ((46 : UInt8) ∉ u → Member.plain ⟨u, l⟩ = ⟨u, l⟩) := by
  constructor
  · simp only [Member.plain, Files.remove_intName]
  · intro h
    have : Files.beforeDot u = none := by
      unfold Files.beforeDot
      have : u.reverse.dropWhile (fun x => decide (x ≠ 46)) = [] := by
        exact drop_all _ (by simpa using h)
      rw [this]
    simp only [Member.plain, removeUniqueId, this]

/-- **Disagreement**: a user's own name with a dot loses what is behind the last dot: the member "my.cloud:density" comes
back as "my:density". -/
theorem C87_dots_lost (a b l : Name) (hb : (46 : UInt8) ∉ b) : Member.plain ⟨a ++ 46 :: b, l⟩ = ⟨a, l⟩ := by
  have : Files.beforeDot (a ++ 46 :: b) = some a := by
    unfold Files.beforeDot
    have : (a ++ 46 :: b).reverse.dropWhile (fun x => decide (x ≠ 46)) = 46 :: a.reverse := by
      rw [List.reverse_append, List.reverse_cons, List.append_assoc, List.dropWhile_append]
      have h0 : b.reverse.dropWhile (fun x => decide (x ≠ 46)) = [] := by
        exact drop_all _ (by simpa using hb)
      rw [h0]
      simp
    rw [this]
    simp
  simp only [Member.plain, removeUniqueId, this]

end Props
end F3D
