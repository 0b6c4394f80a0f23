import Verif.Spec.Rtti

/-!
# Lemmas on casts
-/

namespace F3D
namespace Rtti

theorem declared_base {c b : Cls} : Declared c b ↔ c.base = some b := by
  constructor
  · intro h
    cases h <;> rfl
  · intro h
    cases c <;> simp only [Cls.base, Option.some.injEq, reduceCtorEq] at h <;> subst h <;> constructor

theorem isA_trans {a b c : Cls} (h : IsA a b) (k : IsA b c) : IsA a c := by
  induction h with
  | refl _ => exact k
  | step d _ ih => exact .step d (ih k)

theorem isA_rank {a b : Cls} (h : IsA a b) : a = b ∨ b.rank < a.rank := by
  induction h with
  | refl _ => exact .inl rfl
  | step d _ ih =>
    have := Cls.base_rank (declared_base.1 d)
    rcases ih with e | e
    · subst e; exact .inr this
    · exact .inr (by omega)

/-- The classes of an object are in one line. -/
theorem isA_line {c a b : Cls} (h : IsA c a) (k : IsA c b) : IsA a b ∨ IsA b a := by
  induction h with
  | refl _ => exact .inl k
  | step d r ih =>
    cases k with
    | refl _ => exact .inr (.step d r)
    | step d' r' =>
      have e := (declared_base.1 d).symm.trans (declared_base.1 d')
      injection e with e
      subst e
      exact ih r'

theorem isA_same_rank {c a b : Cls} (h : IsA c a) (k : IsA c b) (r : a.rank = b.rank) : a = b := by
  rcases isA_line h k with e | e <;> rcases isA_rank e with e | e
  · exact e
  · omega
  · exact e.symm
  · omega

theorem isA_proper {a b : Cls} (h : IsA a b) (p : a.Proper) : b.Proper := by
  induction h with
  | refl _ => exact p
  | step d _ ih =>
    apply ih
    cases d <;> first | exact p | exact True.intro

/-- Classes of the library derive from classes of the library. -/
theorem isA_library {a b : Cls} (h : IsA a b) (u : ¬ a.IsUser) : ¬ b.IsUser := by
  induction h with
  | refl _ => exact u
  | step d _ ih =>
    apply ih
    cases d <;> first | exact fun x => x | exact absurd True.intro u

theorem apart_library {c : Cls} (u : ¬ c.IsUser) : Apart c := fun _ _ h x _ => absurd x (isA_library h u)

theorem match_iff (c : Cls) (t : Text) : c.matchRtti t = true ↔ ∃ d, IsA c d ∧ d.ownMatch = true ∧ d.type = t := by
  induction hn : c.rank using Nat.strongRecOn generalizing c with
  | ind n ih =>
    subst hn
    rw [Cls.matchRtti]
    by_cases h : c.ownMatch = true ∧ t = c.type
    · rw [if_pos h]
      exact ⟨fun _ => ⟨c, .refl c, h.1, h.2.symm⟩, fun _ => rfl⟩
    · rw [if_neg h]
      split
      · next e =>
        constructor
        · intro k; cases k
        · rintro ⟨d, hd, o, ht⟩
          cases hd with
          | refl _ => exact absurd ⟨o, ht.symm⟩ h
          | step x _ => rw [declared_base.1 x] at e; cases e
      · next b e =>
        rw [ih b.rank (Cls.base_rank e) b rfl]
        constructor
        · rintro ⟨d, hd, r⟩
          exact ⟨d, .step (declared_base.2 e) hd, r⟩
        · rintro ⟨d, hd, o, ht⟩
          cases hd with
          | refl _ => exact absurd ⟨o, ht.symm⟩ h
          | step x y =>
            rw [declared_base.1 x] at e
            injection e with e
            subst e
            exact ⟨d, y, o, ht⟩

theorem cast_iff (c t : Cls) : castGives c t = true ↔ ∃ d, IsA c d ∧ d.ownMatch = true ∧ d.type = t.type :=
  match_iff c t.type

/-- The part of a type string before the first bracket. -/
def stem (t : Text) : Text := t.takeWhile fun x => x != '<'

theorem stem_templated {n : Text} (h : ∀ x ∈ n, (x != '<') = true) (r : Text) : stem (n ++ '<' :: r) = n := by
  unfold stem
  rw [List.takeWhile_append_of_pos h]
  simp

/-- The name of a class without its arguments, for those of the library. -/
def Cls.stem : Cls → Text
  | .refBase => "RefBase".toList
  | .fieldBase => "FieldBase".toList
  | .fieldRes => "FieldRes".toList
  | .field _ => "Field".toList
  | .writableField _ => "WritableField".toList
  | .resizableField _ => "ResizableField".toList
  | .denseField _ => "DenseField".toList
  | .sparseField _ => "SparseField".toList
  | .macField _ => "MACField".toList
  | .emptyField _ => "EmptyField".toList
  | .mipBase _ => "MIPBase".toList
  | .proceduralField _ => "ProceduralField".toList
  | .mipField _ _ => "MIPField".toList
  | .mipDenseField _ => "MIPField".toList
  | .mipSparseField _ => "MIPField".toList
  | .fieldInterp _ => "FieldInterp".toList
  | .linearFieldInterp _ => "LinearFieldInterp".toList
  | .cubicFieldInterp _ => "CubicFieldInterp".toList
  | .linearMACFieldInterp _ => "LinearMACFieldInterp".toList
  | .cubicMACFieldInterp _ => "CubicMACFieldInterp".toList
  | .proceduralFieldLookup _ => "ProceduralFieldLookup".toList
  | .linearSparseFieldInterp _ => "LinearSparseFieldInterp".toList
  | .linearGenericFieldInterp _ _ => "LinearGenericFieldInterp".toList
  | .cubicGenericFieldInterp _ _ => "CubicGenericFieldInterp".toList
  | .fieldMapping => "FieldMapping".toList
  | .nullFieldMapping => "NullFieldMapping".toList
  | .matrixFieldMapping => "MatrixFieldMapping".toList
  | .frustumFieldMapping => "FrustumFieldMapping".toList
  | .fieldIO => "FieldIO".toList
  | .denseFieldIO => "DenseFieldIO".toList
  | .sparseFieldIO => "SparseFieldIO".toList
  | .macFieldIO => "MACFieldIO".toList
  | .mipFieldIO => "MIPFieldIO".toList
  | .fieldMappingIO => "FieldMappingIO".toList
  | .nullFieldMappingIO => "NullFieldMappingIO".toList
  | .matrixFieldMappingIO => "MatrixFieldMappingIO".toList
  | .frustumFieldMappingIO => "FrustumFieldMappingIO".toList
  | .partition => "Partition".toList
  | .partitionHdf5 => "Partition".toList
  | .user t _ => Rtti.stem t

theorem type_stem (c : Cls) : Rtti.stem c.type = c.stem := by
  cases c <;> first | rfl | exact stem_templated (by decide) _

/-- All these names. -/
def stems : List Text :=
  ["RefBase".toList, "FieldBase".toList, "FieldRes".toList, "Field".toList,
    "WritableField".toList, "ResizableField".toList, "DenseField".toList, "SparseField".toList,
    "MACField".toList, "EmptyField".toList, "MIPBase".toList, "ProceduralField".toList,
    "MIPField".toList, "FieldInterp".toList, "LinearFieldInterp".toList, "CubicFieldInterp".toList,
    "LinearMACFieldInterp".toList, "CubicMACFieldInterp".toList, "ProceduralFieldLookup".toList, "LinearSparseFieldInterp".toList,
    "LinearGenericFieldInterp".toList, "CubicGenericFieldInterp".toList, "FieldMapping".toList, "NullFieldMapping".toList,
    "MatrixFieldMapping".toList, "FrustumFieldMapping".toList, "FieldIO".toList, "DenseFieldIO".toList,
    "SparseFieldIO".toList, "MACFieldIO".toList, "MIPFieldIO".toList, "FieldMappingIO".toList,
    "NullFieldMappingIO".toList, "MatrixFieldMappingIO".toList, "FrustumFieldMappingIO".toList, "Partition".toList]

/-- The number of the name of a class. -/
def Cls.no : Cls → Nat
  | .refBase => 0
  | .fieldBase => 1
  | .fieldRes => 2
  | .field _ => 3
  | .writableField _ => 4
  | .resizableField _ => 5
  | .denseField _ => 6
  | .sparseField _ => 7
  | .macField _ => 8
  | .emptyField _ => 9
  | .mipBase _ => 10
  | .proceduralField _ => 11
  | .mipField _ _ => 12
  | .mipDenseField _ => 12
  | .mipSparseField _ => 12
  | .fieldInterp _ => 13
  | .linearFieldInterp _ => 14
  | .cubicFieldInterp _ => 15
  | .linearMACFieldInterp _ => 16
  | .cubicMACFieldInterp _ => 17
  | .proceduralFieldLookup _ => 18
  | .linearSparseFieldInterp _ => 19
  | .linearGenericFieldInterp _ _ => 20
  | .cubicGenericFieldInterp _ _ => 21
  | .fieldMapping => 22
  | .nullFieldMapping => 23
  | .matrixFieldMapping => 24
  | .frustumFieldMapping => 25
  | .fieldIO => 26
  | .denseFieldIO => 27
  | .sparseFieldIO => 28
  | .macFieldIO => 29
  | .mipFieldIO => 30
  | .fieldMappingIO => 31
  | .nullFieldMappingIO => 32
  | .matrixFieldMappingIO => 33
  | .frustumFieldMappingIO => 34
  | .partition => 35
  | .partitionHdf5 => 35
  | .user _ _ => 36

theorem stem_no {c : Cls} (u : ¬ c.IsUser) : stems[c.no]? = some c.stem := by
  cases c <;> first | exact absurd True.intro u | rfl

theorem stems_nodup : stems.Nodup := by decide

theorem no_eq {d t : Cls} (ud : ¬ d.IsUser) (ut : ¬ t.IsUser) (h : d.type = t.type) : d.no = t.no := by
  have s : d.stem = t.stem := by rw [← type_stem, ← type_stem, h]
  have a := stem_no ud
  have b := stem_no ut
  rw [s, ← b] at a
  obtain ⟨hl, _⟩ := List.getElem?_eq_some_iff.1 b
  exact ((List.getElem?_inj hl stems_nodup).1 a.symm).symm

theorem name_known {v : Val} (h : ∀ n, v ≠ .other n) : v.name ∈ knownNames := by
  cases v <;> first | exact absurd rfl (h _) | decide

theorem name_inj {v w : Val} (hv : v.Proper) (hw : w.Proper) (h : v.name = w.name) : v = w := by
  by_cases a : ∃ n, v = .other n
  · obtain ⟨n, rfl⟩ := a
    by_cases b : ∃ m, w = .other m
    · obtain ⟨m, rfl⟩ := b
      exact congrArg Val.other h
    · have := name_known (v := w) fun m e => b ⟨m, e⟩
      rw [← h] at this
      exact absurd this hv
  · by_cases b : ∃ m, w = .other m
    · obtain ⟨m, rfl⟩ := b
      have := name_known (v := v) fun m e => a ⟨m, e⟩
      rw [h] at this
      exact absurd this hw
    · cases v <;> cases w <;>
        first | rfl | exact absurd ⟨_, rfl⟩ a | exact absurd ⟨_, rfl⟩ b | exact absurd h (by decide)

theorem templated_inj {n : Text} {v w : Val} (h : templated n v = templated n w) : v.name = w.name := by
  unfold templated at h
  have := List.append_cancel_left h
  injection this with _ this
  exact List.append_cancel_right this

theorem levels_inj {l m : Levels} {a b : Text} (h : l.name ++ '<' :: a = m.name ++ '<' :: b) : l = m ∧ a = b := by
  have s := congrArg Rtti.stem h
  rw [stem_templated (by cases l <;> decide), stem_templated (by cases m <;> decide)] at s
  have e : l = m := by revert s; cases l <;> cases m <;> first | exact fun _ => rfl | exact fun s => absurd s (by decide)
  subst e
  have := List.append_cancel_left h
  injection this with _ this
  exact ⟨rfl, this⟩

theorem nested_inj {n : Text} {l m : Levels} {v w : Val} (h : nested n l v = nested n m w) : l = m ∧ v.name = w.name := by
  unfold nested at h
  have := List.append_cancel_left h
  injection this with _ this
  have := levels_inj this
  exact ⟨this.1, List.append_cancel_right this.2⟩

/-- The class with a name, level class and voxel type, if it is one of those that test for their type string. -/
def rebuild : Nat → Levels → Val → Cls
  | 0, _, _ => .refBase
  | 1, _, _ => .fieldBase
  | 2, _, _ => .fieldRes
  | 3, _, v => .field v
  | 4, _, v => .writableField v
  | 5, _, v => .resizableField v
  | 6, _, v => .denseField v
  | 7, _, v => .sparseField v
  | 8, _, v => .macField v
  | 9, _, v => .emptyField v
  | 10, _, v => .mipBase v
  | 11, _, v => .proceduralField v
  | 12, l, v => .mipField l v
  | 13, _, v => .fieldInterp v
  | 14, _, v => .linearFieldInterp v
  | 15, _, v => .cubicFieldInterp v
  | 16, _, v => .linearMACFieldInterp v
  | 17, _, v => .cubicMACFieldInterp v
  | 18, _, v => .proceduralFieldLookup v
  | 19, _, v => .linearSparseFieldInterp v
  | 20, l, v => .linearGenericFieldInterp l v
  | 21, l, v => .cubicGenericFieldInterp l v
  | 22, _, _ => .fieldMapping
  | 23, _, _ => .nullFieldMapping
  | 24, _, _ => .matrixFieldMapping
  | 25, _, _ => .frustumFieldMapping
  | 26, _, _ => .fieldIO
  | 27, _, _ => .denseFieldIO
  | 28, _, _ => .sparseFieldIO
  | 29, _, _ => .macFieldIO
  | 30, _, _ => .mipFieldIO
  | 31, _, _ => .fieldMappingIO
  | 32, _, _ => .nullFieldMappingIO
  | 33, _, _ => .matrixFieldMappingIO
  | 34, _, _ => .frustumFieldMappingIO
  | 35, _, _ => .partition
  | _, _, _ => .refBase

/-- The voxel type in a class. -/
def Cls.val : Cls → Val
  | .field v => v
  | .writableField v => v
  | .resizableField v => v
  | .denseField v => v
  | .sparseField v => v
  | .macField v => v
  | .emptyField v => v
  | .mipBase v => v
  | .proceduralField v => v
  | .mipField _ v => v
  | .mipDenseField v => v
  | .mipSparseField v => v
  | .fieldInterp v => v
  | .linearFieldInterp v => v
  | .cubicFieldInterp v => v
  | .linearMACFieldInterp v => v
  | .cubicMACFieldInterp v => v
  | .proceduralFieldLookup v => v
  | .linearSparseFieldInterp v => v
  | .linearGenericFieldInterp _ v => v
  | .cubicGenericFieldInterp _ v => v
  | _ => .int

/-- The level class in a class. -/
def Cls.lv : Cls → Levels
  | .mipField l _ => l
  | .linearGenericFieldInterp l _ => l
  | .cubicGenericFieldInterp l _ => l
  | _ => .dense

theorem rebuild_eq {d : Cls} (ud : ¬ d.IsUser) (o : d.ownMatch = true) (p : d ≠ .partitionHdf5) :
    d = rebuild d.no d.lv d.val := by
  cases d <;> first | rfl | exact absurd True.intro ud | exact absurd rfl p | simp [Cls.ownMatch] at o

/-- The type string of a class that tests for it is that of no other class of the library. -/
theorem type_inj {d t : Cls} (hd : d.Proper) (ht : t.Proper) (ud : ¬ d.IsUser) (ut : ¬ t.IsUser) (o : d.ownMatch = true)
    (n : t.Named) (h : d.type = t.type) : d = t := by
  have s := no_eq ud ut h
  have p : d ≠ .partitionHdf5 := by
    intro e
    subst e
    cases t <;> first | exact n | simp [Cls.no] at s | exact ut True.intro
  have e := rebuild_eq ud o p
  rw [s] at e
  generalize d.lv = l at e
  generalize d.val = v at e
  subst e
  cases t <;> first | exact absurd True.intro ut | exact n.elim | rfl | exact congrArg _ (name_inj hd ht (templated_inj h)) | skip
  obtain ⟨e, f⟩ := nested_inj h
  subst e
  exact congrArg _ (name_inj hd ht f)

end Rtti
end F3D
