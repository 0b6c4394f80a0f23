import Verif.Proofs.Rtti

/-!
# C86: casts by class name find the class of the object
-/

namespace F3D
namespace Props
open Rtti

/-- **C86.** `field_dynamic_cast` gives a pointer exactly for the class of the object and the classes it derives from, however many
classes outside the library are between: for every class but the eight whose type strings do not tell, given that the classes
outside the library have type strings of their own. -/
theorem C86_cast (c t : Cls) (hc : c.Proper) (ht : t.Proper) (n : t.Named) (o : OwnNames c t) :
    castGives c t = true ↔ IsA c t := by
  rw [cast_iff]
  constructor
  · rintro ⟨d, hd, m, e⟩
    by_cases u : d.IsUser ∨ t.IsUser
    · exact o d hd u e ▸ hd
    · have u := not_or.1 u
      exact type_inj (isA_proper hd hc) ht u.1 u.2 m n e ▸ hd
  · intro h
    refine ⟨t, h, ?_, rfl⟩
    cases t <;> first | rfl | exact n.elim

/-- **C86.** No cast to a class of the object fails, `FieldBase` apart. -/
theorem C86_cast_to_base (c t : Cls) (h : IsA c t) (n : t ≠ .fieldBase) : castGives c t = true := by
  rw [cast_iff]
  cases t <;> first
    | exact absurd rfl n
    | exact ⟨_, h, rfl, rfl⟩
    | exact ⟨_, isA_trans h (.step (.mipDense _) (.refl _)), rfl, rfl⟩
    | exact ⟨_, isA_trans h (.step (.mipSparse _) (.refl _)), rfl, rfl⟩

theorem no_fieldBase {d : Cls} (m : d.ownMatch = true) (u : ¬ d.IsUser) : d.type ≠ Cls.fieldBase.type := by
  intro e
  have s := no_eq u (t := .fieldBase) (fun x => x) e
  cases d <;> first | exact absurd True.intro u | (simp [Cls.ownMatch] at m; done) | simp [Cls.no] at s

/-- **C86.** A cast to `FieldBase` never gives a pointer, although every field is one. -/
theorem C86_fieldBase_never (c : Cls) (h : Apart c) : castGives c .fieldBase = false := by
  rw [Bool.eq_false_iff, ne_eq, cast_iff]
  rintro ⟨d, hd, m, e⟩
  by_cases u : d.IsUser
  · exact h d .fieldBase hd u (fun x => x) e
  · exact no_fieldBase m u e

/-- **C86.** Casts between empty fields of any two voxel types give pointers, between which nothing is derived. -/
theorem C86_emptyField_confused (v w : Val) (h : v ≠ w) :
    castGives (.emptyField v) (.emptyField w) = true ∧ ¬ IsA (.emptyField v) (.emptyField w) := by
  refine ⟨(cast_iff _ _).2 ⟨_, .refl _, rfl, rfl⟩, fun k => ?_⟩
  rcases isA_rank k with e | e
  · injection e with e; exact h e
  · exact Nat.lt_irrefl _ e

/-- **C86.** So do casts between the interpolators of field classes of the same voxel type. -/
theorem C86_generic_interp_confused (l m : Levels) (v : Val) (h : l ≠ m) :
    castGives (.linearGenericFieldInterp l v) (.linearGenericFieldInterp m v) = true ∧
      ¬ IsA (.linearGenericFieldInterp l v) (.linearGenericFieldInterp m v) ∧
      castGives (.cubicGenericFieldInterp l v) (.cubicGenericFieldInterp m v) = true ∧
      ¬ IsA (.cubicGenericFieldInterp l v) (.cubicGenericFieldInterp m v) := by
  refine ⟨(cast_iff _ _).2 ⟨_, .refl _, rfl, rfl⟩, fun k => ?_, (cast_iff _ _).2 ⟨_, .refl _, rfl, rfl⟩, fun k => ?_⟩ <;>
  · rcases isA_rank k with e | e
    · injection e with e; exact h e
    · exact Nat.lt_irrefl _ e

/-- **C86.** A cast to `MIPDenseField` or `MIPSparseField` gives a pointer for MIP fields that are not of these classes. -/
theorem C86_mip_helpers_confused (v : Val) :
    castGives (.mipField .dense v) (.mipDenseField v) = true ∧ ¬ IsA (.mipField .dense v) (.mipDenseField v) ∧
      castGives (.mipField .sparse v) (.mipSparseField v) = true ∧ ¬ IsA (.mipField .sparse v) (.mipSparseField v) := by
  refine ⟨(cast_iff _ _).2 ⟨_, .refl _, rfl, rfl⟩, fun k => ?_, (cast_iff _ _).2 ⟨_, .refl _, rfl, rfl⟩, fun k => ?_⟩ <;>
  · rcases isA_rank k with e | e
    · cases e
    · simp [Cls.rank] at e

/-- **C86.** The classes `Partition` of the two file formats are taken for one another. -/
theorem C86_partition_confused :
    castGives .partition .partitionHdf5 = true ∧ ¬ IsA .partition .partitionHdf5 ∧
      castGives .partitionHdf5 .partition = true ∧ ¬ IsA .partitionHdf5 .partition := by
  refine ⟨(cast_iff _ _).2 ⟨_, .refl _, rfl, rfl⟩, fun k => ?_, (cast_iff _ _).2 ⟨_, .refl _, rfl, rfl⟩, fun k => ?_⟩ <;>
  · rcases isA_rank k with e | e
    · cases e
    · exact absurd e (by decide)

theorem apart_own {c t : Cls} (h : Apart c) (u : ¬ t.IsUser) : OwnNames c t := by
  intro d hd x e
  rcases x with x | x
  · exact absurd e (h d t hd x u)
  · exact absurd x u

theorem firstCast_iff {c : Cls} {l : List (Cls × Val)} {p : Cls × Val} (hc : c.Proper) (h : Apart c)
    (hl : ∀ q ∈ l, q.1.Proper ∧ q.1.Named ∧ ¬ q.1.IsUser) (one : ∀ q ∈ l, ∀ r ∈ l, IsA c q.1 → IsA c r.1 → q = r) :
    firstCast c l = some p ↔ p ∈ l ∧ IsA c p.1 := by
  have key : ∀ q ∈ l, (castGives c q.1 = true ↔ IsA c q.1) := fun q hq =>
    C86_cast c q.1 hc (hl q hq).1 (hl q hq).2.1 (apart_own h (hl q hq).2.2)
  unfold firstCast
  constructor
  · intro e
    have m := List.mem_of_find?_eq_some e
    exact ⟨m, (key p m).1 (by simpa using List.find?_some e)⟩
  · rintro ⟨m, a⟩
    cases e : l.find? fun p => castGives c p.1 with
    | none => exact absurd ((key p m).2 a) (by simpa using List.find?_eq_none.1 e p m)
    | some q =>
      have mq := List.mem_of_find?_eq_some e
      rw [one q mq p m ((key q mq).1 (by simpa using List.find?_some e)) a]

/-- The voxel types that are stored. -/
def storedTypes : List Val := [.float, .half, .double, .v3f, .v3h, .v3d]

theorem stored_proper {v : Val} (h : v ∈ storedTypes) : v.Proper := by
  cases v <;> first | exact True.intro | simp [storedTypes] at h

theorem writes_iff {c : Cls} {k : Val → Cls} {vs : List Val} (hc : c.Proper) (h : Apart c) (sub : ∀ v ∈ vs, v ∈ storedTypes)
    (hk : ∀ v, v.Proper → (k v).Proper ∧ (k v).Named ∧ ¬ (k v).IsUser) (inj : ∀ v w, k v = k w → v = w)
    (rk : ∀ v w, (k v).rank = (k w).rank) (t : Cls) (v : Val) :
    firstCast c (vs.map fun v => (k v, v)) = some (t, v) ↔ t = k v ∧ v ∈ vs ∧ IsA c t := by
  rw [firstCast_iff hc h]
  · constructor
    · rintro ⟨m, a⟩
      obtain ⟨w, hw, e⟩ := List.mem_map.1 m
      cases e
      exact ⟨rfl, hw, a⟩
    · rintro ⟨rfl, hw, a⟩
      exact ⟨List.mem_map.2 ⟨v, hw, rfl⟩, a⟩
  · intro q hq
    obtain ⟨w, hw, rfl⟩ := List.mem_map.1 hq
    exact hk w (stored_proper (sub w hw))
  · intro q hq r hr a b
    obtain ⟨w, _, rfl⟩ := List.mem_map.1 hq
    obtain ⟨x, _, rfl⟩ := List.mem_map.1 hr
    have := inj _ _ (isA_same_rank a b (rk w x))
    rw [this]

/-- **C86.** The writer of dense fields writes a field with the voxel type it has, and only dense fields of the six stored types;
any other field is an exception. -/
theorem C86_dense_writer (c : Cls) (hc : c.Proper) (h : Apart c) (t : Cls) (v : Val) :
    denseWrites c = some (t, v) ↔ t = .denseField v ∧ v ∈ [.float, .half, .double, .v3f, .v3h, .v3d] ∧ IsA c t :=
  writes_iff (k := .denseField) hc h (fun _ m => m) (fun _ p => ⟨p, True.intro, fun x => x⟩) (fun _ _ e => by injection e) (fun _ _ => rfl) t v

/-- **C86.** The same for sparse fields. -/
theorem C86_sparse_writer (c : Cls) (hc : c.Proper) (h : Apart c) (t : Cls) (v : Val) :
    sparseWrites c = some (t, v) ↔ t = .sparseField v ∧ v ∈ [.float, .half, .double, .v3f, .v3h, .v3d] ∧ IsA c t :=
  writes_iff (k := .sparseField) hc h (fun _ m => m) (fun _ p => ⟨p, True.intro, fun x => x⟩) (fun _ _ e => by injection e) (fun _ _ => rfl) t v

/-- **C86.** The same for MAC fields, of the three vector types. -/
theorem C86_mac_writer (c : Cls) (hc : c.Proper) (h : Apart c) (t : Cls) (v : Val) :
    macWrites c = some (t, v) ↔ t = .macField v ∧ v ∈ [.v3f, .v3h, .v3d] ∧ IsA c t :=
  writes_iff (k := .macField) hc h (fun v m => by revert m; cases v <;> simp [storedTypes]) (fun _ p => ⟨p, True.intro, fun x => x⟩)
    (fun _ _ e => by injection e) (fun _ _ => rfl) t v

/-- **C86.** The same for MIP fields, with dense or sparse levels. -/
theorem C86_mip_writer (c : Cls) (hc : c.Proper) (h : Apart c) (t : Cls) (v : Val) :
    mipWrites c = some (t, v) ↔
      (t = .mipField .dense v ∨ t = .mipField .sparse v) ∧ v ∈ [.float, .half, .double, .v3f, .v3h, .v3d] ∧ IsA c t := by
  unfold mipWrites
  rw [firstCast_iff hc h]
  · constructor
    · rintro ⟨m, a⟩
      rcases List.mem_append.1 m with m | m <;> obtain ⟨w, hw, e⟩ := List.mem_map.1 m <;> cases e
      · exact ⟨.inl rfl, hw, a⟩
      · exact ⟨.inr rfl, hw, a⟩
    · rintro ⟨e, hw, a⟩
      refine ⟨List.mem_append.2 ?_, a⟩
      rcases e with rfl | rfl
      · exact .inl (List.mem_map.2 ⟨v, hw, rfl⟩)
      · exact .inr (List.mem_map.2 ⟨v, hw, rfl⟩)
  · intro q hq
    rcases List.mem_append.1 hq with m | m <;> obtain ⟨w, hw, rfl⟩ := List.mem_map.1 m <;>
      exact ⟨stored_proper hw, True.intro, fun x => x⟩
  · intro q hq r hr a b
    rcases List.mem_append.1 hq with m | m <;> rcases List.mem_append.1 hr with k | k <;>
      obtain ⟨w, _, rfl⟩ := List.mem_map.1 m <;> obtain ⟨x, _, rfl⟩ := List.mem_map.1 k <;>
      have e := isA_same_rank a b rfl <;> cases e <;> rfl

/-- **C86.** Which lists of a field group a field is added to: those of its classes; and it is at most one, for distinct voxel types. -/
theorem C86_group (vs : List Val) (nd : vs.Nodup) (hv : ∀ v ∈ vs, v.Proper) (c : Cls) (hc : c.Proper) (h : Apart c) :
    (∀ t, t ∈ grabbedBy vs c ↔
      (∃ v ∈ vs, t = .denseField v ∨ t = .sparseField v ∨ t = .mipField .dense v ∨ t = .mipField .sparse v) ∧ IsA c t) ∧
    (grabbedBy vs c).length ≤ 1 := by
  have mem : ∀ t, t ∈ groupLists vs ↔
      ∃ v ∈ vs, t = .denseField v ∨ t = .sparseField v ∨ t = .mipField .dense v ∨ t = .mipField .sparse v := by
    intro t
    unfold groupLists
    simp only [List.mem_append, List.mem_map]
    constructor
    · rintro (((⟨v, m, rfl⟩ | ⟨v, m, rfl⟩) | ⟨v, m, rfl⟩) | ⟨v, m, rfl⟩) <;> exact ⟨v, m, by simp⟩
    · rintro ⟨v, m, rfl | rfl | rfl | rfl⟩
      · exact .inl (.inl (.inl ⟨v, m, rfl⟩))
      · exact .inl (.inl (.inr ⟨v, m, rfl⟩))
      · exact .inl (.inr ⟨v, m, rfl⟩)
      · exact .inr ⟨v, m, rfl⟩
  have cast : ∀ t, (∃ v ∈ vs, t = .denseField v ∨ t = .sparseField v ∨ t = .mipField .dense v ∨ t = .mipField .sparse v) →
      (castGives c t = true ↔ IsA c t) := by
    rintro t ⟨v, m, e⟩
    have p : t.Proper := by rcases e with rfl | rfl | rfl | rfl <;> exact hv v m
    have n : t.Named := by rcases e with rfl | rfl | rfl | rfl <;> exact True.intro
    have u : ¬ t.IsUser := by rcases e with rfl | rfl | rfl | rfl <;> exact fun x => x
    exact C86_cast c t hc p n (apart_own h u)
  have key : ∀ t, t ∈ grabbedBy vs c ↔
      (∃ v ∈ vs, t = .denseField v ∨ t = .sparseField v ∨ t = .mipField .dense v ∨ t = .mipField .sparse v) ∧ IsA c t := by
    intro t
    unfold grabbedBy
    rw [List.mem_filter, mem]
    constructor
    · rintro ⟨x, k⟩
      exact ⟨x, (cast t x).1 k⟩
    · rintro ⟨x, k⟩
      exact ⟨x, (cast t x).2 k⟩
  refine ⟨key, ?_⟩
  have inj : ∀ k : Val → Cls, (∀ v w, k v = k w → v = w) → (vs.map k).Nodup := fun k i =>
    List.Pairwise.map _ (fun a b n e => n (i a b e)) nd
  have n : (grabbedBy vs c).Nodup := by
    unfold grabbedBy
    refine List.Pairwise.filter _ ?_
    show (groupLists vs).Nodup
    unfold groupLists
    simp only [List.nodup_append, List.mem_append, List.mem_map]
    refine ⟨⟨⟨inj _ fun _ _ e => by injection e, inj _ fun _ _ e => by injection e, ?_⟩, inj _ fun _ _ e => by injection e, ?_⟩,
      inj _ fun _ _ e => by injection e, ?_⟩
    · rintro _ ⟨_, _, rfl⟩ _ ⟨_, _, rfl⟩ e; cases e
    · rintro _ (⟨_, _, rfl⟩ | ⟨_, _, rfl⟩) _ ⟨_, _, rfl⟩ e <;> cases e
    · rintro _ ((⟨_, _, rfl⟩ | ⟨_, _, rfl⟩) | ⟨_, _, rfl⟩) _ ⟨_, _, rfl⟩ e <;> cases e
  match e : grabbedBy vs c with
  | [] => exact Nat.zero_le _
  | [_] => exact Nat.le_refl _
  | a :: b :: r =>
    rw [e] at n
    have ha := (key a).1 (by rw [e]; simp)
    have hb := (key b).1 (by rw [e]; simp)
    have ab : a ≠ b := fun x => by subst x; simp at n
    exfalso
    obtain ⟨⟨v, _, ka⟩, ia⟩ := ha
    obtain ⟨⟨w, _, kb⟩, ib⟩ := hb
    refine ab (isA_same_rank ia ib ?_)
    rcases ka with rfl | rfl | rfl | rfl <;> rcases kb with rfl | rfl | rfl | rfl <;> rfl

/-- **C86.** Fields of the other classes are added to no list: the group samples as if they were not there. -/
theorem C86_group_ignores (vs : List Val) (v : Val) (nd : vs.Nodup) (hv : ∀ v ∈ vs, v.Proper) (hp : v.Proper) (c : Cls)
    (h : c = .macField v ∨ c = .emptyField v ∨ c = .proceduralField v ∨ c = .mipField .mac v) : grabbedBy vs c = [] := by
  have u : ¬ c.IsUser := by rcases h with rfl | rfl | rfl | rfl <;> exact fun x => x
  have p : c.Proper := by rcases h with rfl | rfl | rfl | rfl <;> exact hp
  have r : c.rank = 6 := by rcases h with rfl | rfl | rfl | rfl <;> rfl
  have key := (C86_group vs nd hv c p (apart_library u)).1
  cases e : grabbedBy vs c with
  | nil => rfl
  | cons t _ =>
    exfalso
    obtain ⟨⟨w, _, k⟩, a⟩ := (key t).1 (by rw [e]; simp)
    have rt : t.rank = 6 := by rcases k with rfl | rfl | rfl | rfl <;> rfl
    rcases isA_rank a with x | x
    · subst x
      rcases h with rfl | rfl | rfl | rfl <;> simp at k
    · omega

/-- **C86.** A dense, sparse or MIP field of a voxel type of the group is added to the list of its class, and to no other. -/
theorem C86_group_takes (vs : List Val) (v : Val) (nd : vs.Nodup) (hv : ∀ v ∈ vs, v.Proper) (m : v ∈ vs) (c : Cls)
    (h : c = .denseField v ∨ c = .sparseField v ∨ c = .mipField .dense v ∨ c = .mipField .sparse v) : grabbedBy vs c = [c] := by
  have u : ¬ c.IsUser := by rcases h with rfl | rfl | rfl | rfl <;> exact fun x => x
  have p : c.Proper := by rcases h with rfl | rfl | rfl | rfl <;> exact hv v m
  obtain ⟨key, one⟩ := C86_group vs nd hv c p (apart_library u)
  have x := (key c).2 ⟨⟨v, m, h⟩, .refl c⟩
  match e : grabbedBy vs c with
  | [] => rw [e] at x; cases x
  | [a] =>
    rw [e] at x
    rw [List.mem_singleton.1 x]
  | a :: b :: r => rw [e] at one; simp at one

/-! ## A case: a class of a program, derived from a dense field of half vectors -/

/-- A user's field class. -/
def smokeField : Cls := .user "SmokeField".toList (.denseField .v3h)

theorem smoke_apart : Apart smokeField := by
  intro d t h u ut
  cases h with
  | refl _ =>
    intro e
    have s : Cls.stem t = "SmokeField".toList := by rw [← type_stem, ← e]; rfl
    have : t.stem ∈ stems := List.mem_of_getElem? (stem_no ut)
    rw [s] at this
    exact absurd this (by decide)
  | step x y =>
    cases x
    exact absurd u (isA_library y fun x => x)

example : castGives smokeField (.field .v3h) = true :=
  (C86_cast smokeField (.field .v3h) True.intro True.intro True.intro (apart_own smoke_apart fun x => x)).2
    (.step (.user _ _) (.step (.dense _) (.step (.resizable _) (.step (.writable _) (.refl _)))))

example : castGives smokeField (.field .v3f) = false := by decide +kernel

example : denseWrites smokeField = some (.denseField .v3h, .v3h) :=
  (C86_dense_writer smokeField True.intro smoke_apart _ _).2 ⟨rfl, by decide, .step (.user _ _) (.refl _)⟩

example : grabbedBy [.half, .float, .double] (.sparseField .float) = [.sparseField .float] :=
  C86_group_takes _ .float (by decide) (fun v m => by cases v <;> first | exact True.intro | simp at m) (by decide) _ (.inr (.inl rfl))

example : mipWrites (.mipField .mac .v3f) = none := by decide +kernel

end Props
end F3D
