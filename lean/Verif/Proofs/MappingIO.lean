import Verif.Model.MappingIO
import Verif.Proofs.FieldIO
import Verif.Proofs.Mapping
import Verif.Props.Mapping

/-! Lemmas for C47. -/

namespace F3D.MappingIO
open Ogawa Og FieldIO Mapping Props
open Metadata (encWord decWord)

/-! ## Bytes -/

theorem unle_le64' (n : Nat) (h : n < 2 ^ 64) : unle (le64 n) = n := by
  simp only [le64, unle, UInt8.toNat_ofNat']
  omega

theorem decDouble_encDouble (w : UInt64) : decDouble (encDouble w) = w := by
  unfold decDouble encDouble
  rw [unle_le64' _ w.toNat_lt]
  exact UInt64.ofNat_toNat

theorem decRow_encRow (r : BRow) : decRow (encRow r) = r := by
  obtain ⟨x, y, z, w⟩ := r
  have e1 : (encRow ⟨x, y, z, w⟩).take 8 = encDouble x := rfl
  have e2 : ((encRow ⟨x, y, z, w⟩).drop 8).take 8 = encDouble y := rfl
  have e3 : ((encRow ⟨x, y, z, w⟩).drop 16).take 8 = encDouble z := rfl
  have e4 : ((encRow ⟨x, y, z, w⟩).drop 24).take 8 = encDouble w := rfl
  rw [decRow, e1, e2, e3, e4, decDouble_encDouble, decDouble_encDouble, decDouble_encDouble, decDouble_encDouble]

theorem encRow_length (r : BRow) : (encRow r).length = 32 := rfl

theorem decMat_encMat (m : BMat) : decMat (encMat m) = m := by
  obtain ⟨a, b, c, d⟩ := m
  have e1 : (encMat ⟨a, b, c, d⟩).take 32 = encRow a := rfl
  have e2 : ((encMat ⟨a, b, c, d⟩).drop 32).take 32 = encRow b := rfl
  have e3 : ((encMat ⟨a, b, c, d⟩).drop 64).take 32 = encRow c := rfl
  have e4 : ((encMat ⟨a, b, c, d⟩).drop 96).take 32 = encRow d := rfl
  rw [decMat, e1, e2, e3, e4, decRow_encRow, decRow_encRow, decRow_encRow, decRow_encRow]

theorem encMat_length (m : BMat) : (encMat m).length = 128 := by
  simp only [encMat, List.length_append, encRow_length]

theorem decWord_encWord' (w : UInt32) : decWord (encWord w) = w := by
  unfold decWord encWord
  rw [unle_le32 _ w.toNat_lt]
  exact UInt32.ofNat_toNat

/-! ## Names -/

theorem digit_range (c : Char) (n : Nat) (h : c ∈ Nat.toDigits 10 n) : 48 ≤ c.toNat ∧ c.toNat ≤ 57 := by
  have := Nat.isDigit_of_mem_toDigits (by decide) (by decide) h
  simp only [Char.isDigit, Bool.and_eq_true, decide_eq_true_eq] at this
  exact ⟨this.1, this.2⟩

theorem mem_decimal (b : UInt8) (n : Nat) (h : b ∈ decimal n) : 48 ≤ b.toNat ∧ b.toNat ≤ 57 := by
  simp only [decimal, ascii, List.mem_map] at h
  obtain ⟨c, hc, rfl⟩ := h
  have := digit_range c n hc
  rw [UInt8.toNat_ofNat']
  omega

theorem ascii_inj : ∀ (a b : List Char), (∀ c ∈ a, c.toNat < 256) → (∀ c ∈ b, c.toNat < 256) → ascii a = ascii b → a = b
  | [], [], _, _, _ => rfl
  | [], _ :: _, _, _, h => by simp [ascii] at h
  | _ :: _, [], _, _, h => by simp [ascii] at h
  | x :: a, y :: b, ha, hb, h => by
    simp only [ascii, List.map_cons, List.cons.injEq] at h
    have hx := ha x (by simp)
    have hy := hb y (by simp)
    have h1 : x.toNat = y.toNat := by
      have := congrArg UInt8.toNat h.1
      rw [UInt8.toNat_ofNat', UInt8.toNat_ofNat'] at this
      omega
    rw [ascii_inj a b (fun c hc => ha c (by simp [hc])) (fun c hc => hb c (by simp [hc])) h.2, Char.toNat_inj.1 h1]

theorem decimal_inj (i j : Nat) (h : decimal i = decimal j) : i = j := by
  have hd : ∀ n, ∀ c ∈ Nat.toDigits 10 n, c.toNat < 256 := fun n c hc => by have := digit_range c n hc; omega
  have := ascii_inj _ _ (hd i) (hd j) h
  rw [← Nat.ofDigitChars_ten_toDigits (n := i), this, Nat.ofDigitChars_ten_toDigits]

/-- The names with numbers. -/
def numbered (nm : Name) : Prop :=
  ∃ i, nm = timeName i ∨ nm = matrixName i ∨ nm = screenName i ∨ nm = cameraName i

theorem numbered_ok (nm : Name) (h : numbered nm) : (47 : UInt8) ∉ nm ∧ plainName nm := by
  have key : ∀ (p : Name) (i : Nat), (47 : UInt8) ∉ p → (0 : UInt8) ∉ p → p ≠ [] →
      (47 : UInt8) ∉ p ++ decimal i ∧ plainName (p ++ decimal i) := by
    intro p i h1 h2 h3
    refine ⟨?_, by simp [h3], ?_⟩ <;> rw [List.mem_append] <;> rintro (h | h)
    · exact h1 h
    · have := mem_decimal _ _ h; revert this; decide
    · exact h2 h
    · have := mem_decimal _ _ h; revert this; decide
  obtain ⟨i, rfl | rfl | rfl | rfl⟩ := h <;> exact key _ i (by decide) (by decide) (by decide)

theorem fixed_ok : ∀ nm ∈ [kNullData, kMatrixData, kNumSamples, kZDist, kMappingType], (47 : UInt8) ∉ nm ∧ plainName nm := by
  unfold plainName; decide

theorem timeName_inj {i j : Nat} : timeName i = timeName j ↔ i = j :=
  ⟨fun h => decimal_inj _ _ (List.append_cancel_left h), fun h => by rw [h]⟩
theorem matrixName_inj {i j : Nat} : matrixName i = matrixName j ↔ i = j :=
  ⟨fun h => decimal_inj _ _ (List.append_cancel_left h), fun h => by rw [h]⟩
theorem screenName_inj {i j : Nat} : screenName i = screenName j ↔ i = j :=
  ⟨fun h => decimal_inj _ _ (List.append_cancel_left h), fun h => by rw [h]⟩
theorem cameraName_inj {i j : Nat} : cameraName i = cameraName j ↔ i = j :=
  ⟨fun h => decimal_inj _ _ (List.append_cancel_left h), fun h => by rw [h]⟩

/-- Names told apart by their first three characters. -/
theorem ne_of_take {a b : Name} (h : a.take 3 ≠ b.take 3) : a ≠ b := fun e => h (by rw [e])

theorem take_time (i : Nat) : (timeName i).take 3 = [116, 105, 109] := rfl
theorem take_matrix (i : Nat) : (matrixName i).take 3 = [109, 97, 116] := rfl
theorem take_screen (i : Nat) : (screenName i).take 3 = [115, 99, 114] := rfl
theorem take_camera (i : Nat) : (cameraName i).take 3 = [99, 97, 109] := rfl
theorem take_num : kNumSamples.take 3 = [110, 117, 109] := rfl
theorem take_z : kZDist.take 3 = [122, 95, 100] := rfl
theorem take_type : kMappingType.take 3 = [109, 97, 112] := rfl
theorem take_data : kMatrixData.take 3 = [77, 97, 116] := rfl
theorem take_null : kNullData.take 3 = [78, 117, 108] := rfl

/-- Closes goals `a ≠ b` and `a = b → False` for names of different kinds. -/
macro "names" : tactic => `(tactic| (apply ne_of_take; simp [take_time, take_matrix, take_screen, take_camera, take_num,
  take_z, take_type, take_data, take_null]))

/-! ## Entries of samples -/

theorem firstOf_hit (nm : Name) (t : DataType) (v : List UInt8) (es : List Entry) :
    firstOf .attribute nm (.attribute nm t v :: es) = some (.attribute nm t v) := by
  simp [firstOf, kindOf, nameOf]

theorem firstOf_miss (nm : Name) (e : Entry) (es : List Entry) (h : nameOf e ≠ nm) :
    firstOf .attribute nm (e :: es) = firstOf .attribute nm es := by
  simp [firstOf, h]

theorem matrix_first (l : List BSample) (rest : List Entry) : ∀ (i k : Nat) (s : BSample), l[k]? = some s →
    firstOf .attribute (timeName (i + k)) (matrixSampleEntries i l ++ rest) =
      some (.attribute (timeName (i + k)) .float32 (encWord s.1)) ∧
    firstOf .attribute (matrixName (i + k)) (matrixSampleEntries i l ++ rest) =
      some (.attribute (matrixName (i + k)) .mtx64 (encMat s.2)) := by
  induction l with
  | nil => intro i k s h; simp at h
  | cons a l ih =>
    intro i k s h
    simp only [matrixSampleEntries, List.cons_append]
    cases k with
    | zero =>
      simp only [List.getElem?_cons_zero, Option.some.injEq] at h
      subst h
      rw [Nat.add_zero, firstOf_hit, firstOf_miss _ _ _ (by show timeName i ≠ _; names), firstOf_hit]
      exact ⟨rfl, rfl⟩
    | succ k =>
      simp only [List.getElem?_cons_succ] at h
      have := ih (i + 1) k s h
      rw [show i + 1 + k = i + (k + 1) by omega] at this
      rw [firstOf_miss _ _ _ (by show timeName i ≠ _; rw [ne_eq, timeName_inj]; omega),
        firstOf_miss _ _ _ (by show matrixName i ≠ _; names),
        firstOf_miss _ _ _ (by show timeName i ≠ _; names),
        firstOf_miss _ _ _ (by show matrixName i ≠ _; rw [ne_eq, matrixName_inj]; omega)]
      exact this

theorem matrix_names (l : List BSample) : ∀ i, ∀ e ∈ matrixSampleEntries i l, numbered (nameOf e) := by
  induction l with
  | nil => intro i e h; simp [matrixSampleEntries] at h
  | cons a l ih =>
    intro i e h
    simp only [matrixSampleEntries, List.mem_cons] at h
    rcases h with rfl | rfl | h
    · exact ⟨i, Or.inl rfl⟩
    · exact ⟨i, Or.inr (Or.inl rfl)⟩
    · exact ih _ e h

theorem matrix_loop (kids : List Tree) : ∀ (l : List BSample) (i : Nat), (∀ (k : Nat) (s : BSample), l[k]? = some s →
      attr .float32 (timeName (i + k)) kids = .ok (encWord s.1) ∧
      attr .mtx64 (matrixName (i + k)) kids = .ok (encMat s.2)) →
    readMatrixSamples kids i l.length = .ok l := by
  intro l
  induction l with
  | nil => intro i _; rfl
  | cons a l ih =>
    intro i h
    obtain ⟨h1, h2⟩ := h 0 a rfl
    have h3 := ih (i + 1) (fun k s hk => by
      have := h (k + 1) s hk
      rwa [show i + (k + 1) = i + 1 + k by omega] at this)
    simp only [List.length_cons, readMatrixSamples]
    rw [Nat.add_zero] at h1 h2
    rw [h1, h2, h3]
    simp only [orNull, Res.bind, decWord_encWord', decMat_encMat]

theorem encInt_length (i : Int) : (encInt i).length = 4 := rfl

/-- The number of samples fits an `int`. -/
def Fits (n : Nat) : Prop := n < 2 ^ 31

theorem decInt_len (n : Nat) (h : Fits n) : (decInt (encInt n)).toNat = n := by
  unfold Fits at h
  rw [decInt_encInt _ (by omega)]
  rfl

/-- The samples are read back from a group that starts with the mapping type. -/
theorem readMatrix_ok (g cls : Name) (l : List BSample) (hl : Fits l.length) :
    readMatrix (groupKids g (mappingEntries cls (matrixEntries l))) = .ok ((curveVal l).map matrixOf) := by
  have hn : ∀ e ∈ mappingEntries cls (matrixEntries l), plainName (nameOf e) := by
    intro e he
    simp only [mappingEntries, matrixEntries, List.mem_cons] at he
    rcases he with rfl | rfl | he
    · exact (fixed_ok kMappingType (by simp)).2
    · exact (fixed_ok kNumSamples (by simp)).2
    · exact (numbered_ok _ (matrix_names l 0 e he)).2
  have hnum : attr .int32 kNumSamples (groupKids g (mappingEntries cls (matrixEntries l))) = .ok (encInt l.length) := by
    refine attr_get g _ _ _ _ (fixed_ok kNumSamples (by simp)).1 hn ?_ (by decide) rfl
    unfold mappingEntries matrixEntries
    rw [firstOf_miss _ _ _ (by show kMappingType ≠ _; names), firstOf_hit]
  have hs : ∀ (k : Nat) (s : BSample), l[k]? = some s →
      attr .float32 (timeName (0 + k)) (groupKids g (mappingEntries cls (matrixEntries l))) = .ok (encWord s.1) ∧
      attr .mtx64 (matrixName (0 + k)) (groupKids g (mappingEntries cls (matrixEntries l))) = .ok (encMat s.2) := by
    intro k s hk
    have h1 := matrix_first l [] 0 k s hk
    rw [List.append_nil] at h1
    constructor
    · refine attr_get g _ _ _ _ (numbered_ok _ ⟨0 + k, Or.inl rfl⟩).1 hn ?_ (by decide) rfl
      unfold mappingEntries matrixEntries
      rw [firstOf_miss _ _ _ (by show kMappingType ≠ _; names), firstOf_miss _ _ _ (by show kNumSamples ≠ _; names)]
      exact h1.1
    · refine attr_get g _ _ _ _ (numbered_ok _ ⟨0 + k, Or.inr (Or.inl rfl)⟩).1 hn ?_ (by decide) (encMat_length _)
      unfold mappingEntries matrixEntries
      rw [firstOf_miss _ _ _ (by show kMappingType ≠ _; names), firstOf_miss _ _ _ (by show kNumSamples ≠ _; names)]
      exact h1.2
  unfold readMatrix
  rw [hnum]
  simp only [orNull, Res.bind]
  rw [decInt_len _ hl, matrix_loop _ l 0 hs]

theorem strAttr_get (g nm : Name) (v : List UInt8) (es : List Entry) (hs : (47 : UInt8) ∉ nm)
    (hn : ∀ x ∈ es, plainName (nameOf x)) (hf : firstOf .attribute nm es = some (.attribute nm .string v))
    (hv : (0 : UInt8) ∉ v) : strAttr nm (groupKids g es) = .ok v := by
  obtain ⟨⟨a, h1, h2⟩, _, _⟩ := C36_attribute_round_trip g nm .string v es hs hn hf (fun h => absurd rfl h)
  rw [if_pos rfl, C36_string_without_nul v hv] at h2
  simp only [strAttr, h1, h2]

/-! ## The mapping made from samples -/

/-- A sorted curve is rebuilt by adding its samples in order. -/
theorem build_sorted (c : Curve M44) (h : Curve.Sorted c) : Curve.build c = c := by
  have := Mapping.fold_map (fun x : M44 => x) c h
  simpa [Curve.build] using this

theorem matrixOf_eq (c : Curve M44) :
    matrixOf c = Matrix.run Frame.default (c.map fun s => Op.setLocalToWorldAt s.1 s.2) := by
  unfold matrixOf Matrix.run
  rw [List.foldl_map]
  rfl

theorem history_samples (c : Curve M44) : history (c.map fun s => Op.setLocalToWorldAt s.1 s.2) = c := by
  refine snocInd (P := fun c : Curve M44 => history (c.map fun s => Op.setLocalToWorldAt s.1 s.2) = c) rfl ?_ c
  intro l a ih
  rw [List.map_append, List.map_cons, List.map_nil, history_snoc, ih]

theorem matrixOf_spec (c : Curve M44) (h : Curve.Sorted c) :
    (matrixOf c).frame = Frame.default ∧ (matrixOf c).lsToWsCurve = c ∧ (matrixOf c).update = matrixOf c := by
  rw [matrixOf_eq]
  obtain ⟨h1, h2, h3⟩ := run_spec Frame.default (c.map fun s => Op.setLocalToWorldAt s.1 s.2)
  refine ⟨?_, by rw [h2, history_samples, build_sorted c h], h3⟩
  rw [h1]
  unfold frameOf
  rw [List.foldl_map]
  clear h1 h2 h3 h
  generalize Frame.default = f
  induction c generalizing f with
  | nil => rfl
  | cons a l ih => exact ih f

/-! ## Curves -/

theorem replace_map {T U : Type} (g : T → U) (t : Rat) (v : T) : ∀ c : Curve T,
    Curve.replace t (g v) (c.map fun s => (s.1, g s.2)) = (Curve.replace t v c).map (·.map fun s => (s.1, g s.2))
  | [] => rfl
  | s :: l => by
    simp only [List.map_cons, Curve.replace]
    split
    · rfl
    · rw [replace_map g t v l, Option.map_map, Option.map_map]; rfl

theorem insert_map {T U : Type} (g : T → U) (t : Rat) (v : T) : ∀ c : Curve T,
    Curve.insert t (g v) (c.map fun s => (s.1, g s.2)) = (Curve.insert t v c).map fun s => (s.1, g s.2)
  | [] => rfl
  | s :: l => by
    simp only [List.map_cons, Curve.insert]
    split
    · rfl
    · rw [insert_map g t v l]; rfl

theorem addSample_map {T U : Type} (g : T → U) (t : Rat) (v : T) (c : Curve T) :
    Curve.addSample (c.map fun s => (s.1, g s.2)) t (g v) = (Curve.addSample c t v).map fun s => (s.1, g s.2) := by
  unfold Curve.addSample
  rw [replace_map]
  cases Curve.replace t v c with
  | none => exact insert_map g t v c
  | some c' => rfl

theorem build_map {T U : Type} (g : T → U) (h : List (Rat × T)) :
    Curve.build (h.map fun s => (s.1, g s.2)) = (Curve.build h).map fun s => (s.1, g s.2) := by
  refine snocInd (P := fun h : List (Rat × T) =>
    Curve.build (h.map fun s => (s.1, g s.2)) = (Curve.build h).map fun s => (s.1, g s.2)) rfl ?_ h
  intro l a ih
  rw [List.map_append, List.map_cons, List.map_nil, Curve.build_snoc, Curve.build_snoc, ih, addSample_map]

theorem sorted_ext {T : Type} : ∀ (c d : Curve T), Curve.Sorted c → Curve.Sorted d → (∀ s, s ∈ c ↔ s ∈ d) → c = d
  | [], [], _, _, _ => rfl
  | [], b :: d, _, _, h => by have := (h b).2 (by simp); simp at this
  | a :: c, [], _, _, h => by have := (h a).1 (by simp); simp at this
  | a :: c, b :: d, hc, hd, h => by
    obtain ⟨c1, c2⟩ := List.pairwise_cons.1 hc
    obtain ⟨d1, d2⟩ := List.pairwise_cons.1 hd
    have hab : a = b := by
      rcases List.mem_cons.1 ((h a).1 (by simp)) with e | e
      · exact e
      · rcases List.mem_cons.1 ((h b).2 (by simp)) with e' | e'
        · exact e'.symm
        · exact absurd (lt_trans (d1 a e) (c1 b e')) (lt_irrefl _)
    subst hab
    congr 1
    refine sorted_ext c d c2 d2 fun s => ?_
    constructor
    · intro hs
      rcases List.mem_cons.1 ((h s).1 (List.mem_cons_of_mem _ hs)) with e | e
      · subst e; exact absurd (c1 _ hs) (lt_irrefl _)
      · exact e
    · intro hs
      rcases List.mem_cons.1 ((h s).2 (List.mem_cons_of_mem _ hs)) with e | e
      · subst e; exact absurd (d1 _ hs) (lt_irrefl _)
      · exact e

/-- A first sample that is given again later leaves no trace. -/
theorem build_overwritten {T : Type} (t : Rat) (x : T) (h : List (Rat × T)) (ht : ∃ s ∈ h, s.1 = t) :
    Curve.build ((t, x) :: h) = Curve.build h := by
  obtain ⟨a1, a2⟩ := Curve.build_spec ((t, x) :: h)
  obtain ⟨b1, b2⟩ := Curve.build_spec h
  refine sorted_ext _ _ a1 b1 fun ⟨u, w⟩ => ?_
  rw [a2, b2, Curve.lastFor]
  cases hl : Curve.lastFor u h with
  | some v => simp
  | none =>
    have : t ≠ u := by
      rintro rfl
      obtain ⟨s, hs, e⟩ := ht
      clear a1 a2 b1 b2
      induction h with
      | nil => simp at hs
      | cons b l ih =>
        simp only [Curve.lastFor] at hl
        split at hl
        · simp at hl
        · rename_i hn
          split at hl
          · simp at hl
          · rename_i hb
            rcases List.mem_cons.1 hs with rfl | hs
            · exact hb e
            · exact ih hn hs
    simp [this]

/-- A first sample that is not given again stays. -/
theorem build_kept {T : Type} (t : Rat) (x : T) (h : List (Rat × T)) (ht : ∀ s ∈ h, s.1 ≠ t) :
    (Curve.build ((t, x) :: h)).length = (Curve.build h).length + 1 := by
  obtain ⟨a1, a2⟩ := Curve.build_spec ((t, x) :: h)
  obtain ⟨b1, b2⟩ := Curve.build_spec h
  have hn : Curve.lastFor t h = none := by
    cases hl : Curve.lastFor t h with
    | none => rfl
    | some w => exact absurd rfl (ht _ (lastFor_mem t w h hl))
  have hb : ∀ s ∈ Curve.build h, s.1 ≠ t := fun s hs => ht s (lastFor_mem s.1 s.2 h ((b2 s.1 s.2).1 hs))
  have hlen : ∀ c : Curve T, (∀ s ∈ c, s.1 ≠ t) → (Curve.put t x c).length = c.length + 1 := by
    intro c
    induction c with
    | nil => intro _; rfl
    | cons s l ih =>
      intro hc
      have h1 := hc s (by simp)
      simp only [Curve.put, if_neg h1]
      split
      · rfl
      · rw [List.length_cons, List.length_cons, ih (fun s hs => hc s (List.mem_cons_of_mem _ hs))]
  have e : Curve.build ((t, x) :: h) = Curve.put t x (Curve.build h) := by
    refine sorted_ext _ _ a1 (Curve.put_sorted t x _ b1) fun ⟨u, w⟩ => ?_
    rw [a2, Curve.mem_put t x _ b1, b2, Curve.lastFor]
    by_cases hu : u = t
    · subst hu; rw [hn, if_pos rfl, if_pos rfl]; simp [eq_comm]
    · rw [if_neg hu]
      cases Curve.lastFor u h with
      | some v => simp
      | none => simp; exact fun e => absurd e.symm hu
  rw [e, hlen _ hb]

/-! ## Frustum mappings -/

/-- The near and far planes of a pair of transforms. -/
def planesOf (v : M44 × M44) : Rat × Rat := (planes (lsToSs.mul v.1) v.2).getD (0, 0)

/-- The curves of the mapping are those of the table of transforms. -/
def Table (T : Curve (M44 × M44)) (m : Frustum) : Prop :=
  m.lpsToWsCurve = T.map (fun s => (s.1, lsToSs.mul s.2.1)) ∧ m.csToWsCurve = T.map (fun s => (s.1, s.2.2)) ∧
  m.nearCurve = T.map (fun s => (s.1, (planesOf s.2).1)) ∧ m.farCurve = T.map (fun s => (s.1, (planesOf s.2).2)) ∧
  ∀ s ∈ T, ∃ r, planes (lsToSs.mul s.2.1) s.2.2 = some r

theorem new_table (k : Rat) (m : Frustum) (h : Frustum.new k = some m) :
    Table [(0, standardSsToWs k, M44.one)] m := by
  unfold Frustum.new Frustum.reset at h
  simp only [Option.bind_eq_bind, Option.bind_eq_some_iff] at h
  obtain ⟨m1, h1, h2⟩ := h
  have h3 := computeVoxelSize_fields _ _ h2
  obtain ⟨d, _, f1, f2, _, f4, f5, f6, n, f, f7, f8, f9⟩ := setTransformsAt_fields _ _ _ _ _ h1
  rw [h3]
  have hp : planesOf (standardSsToWs k, M44.one) = (n, f) := by unfold planesOf; rw [f7]; rfl
  simp only [Frustum.clearCurves] at f5 f6 f8 f9
  refine ⟨?_, ?_, ?_, ?_, ?_⟩
  · show m1.lpsToWsCurve = _; rw [f5]; cases d <;> rfl
  · show m1.csToWsCurve = _; rw [f6]; cases d <;> rfl
  · show m1.nearCurve = _; rw [f8]; simp only [List.map_cons, List.map_nil, hp]; cases d <;> rfl
  · show m1.farCurve = _; rw [f9]; simp only [List.map_cons, List.map_nil, hp]; cases d <;> rfl
  · intro s hs
    simp only [List.mem_singleton] at hs
    subst hs
    exact ⟨_, f7⟩

theorem run_table (k : Rat) (m0 m : Frustum) (h0 : Frustum.new k = some m0) (calls : List (Rat × M44 × M44))
    (hne : calls ≠ []) (h : runCalls m0 calls = some m) :
    Table (Curve.build calls) m ∧ m.defaultState = some false ∧ m.zDist = some .perspective ∧ m.frame = Frame.default := by
  have hm0 := new_fields k m0 h0
  have key : ∀ calls : List (Rat × M44 × M44), ∀ m, runCalls m0 calls = some m →
      m.zDist = some .perspective ∧ m.frame = Frame.default ∧ (calls = [] → m.defaultState = some true) ∧
      (calls ≠ [] → m.defaultState = some false ∧
        m.lpsToWsCurve = Curve.build (calls.map fun s => (s.1, lsToSs.mul s.2.1)) ∧
        m.csToWsCurve = Curve.build (calls.map fun s => (s.1, s.2.2)) ∧
        m.nearCurve = Curve.build (calls.map fun s => (s.1, (planesOf s.2).1)) ∧
        m.farCurve = Curve.build (calls.map fun s => (s.1, (planesOf s.2).2)) ∧
        ∀ s ∈ calls, ∃ r, planes (lsToSs.mul s.2.1) s.2.2 = some r) := by
    refine snocInd ?_ ?_
    · intro m h
      simp only [runCalls, List.foldlM_nil, Option.pure_def, Option.some.injEq] at h
      subst h
      exact ⟨hm0.2.1, hm0.1, fun _ => hm0.2.2.1, fun h => absurd rfl h⟩
    · intro l c ih m h
      rw [runCalls_snoc] at h
      simp only [Option.bind_eq_some_iff] at h
      obtain ⟨m1, hm1, h⟩ := h
      obtain ⟨i0, i1, i2, i3⟩ := ih m1 hm1
      obtain ⟨d, hd, f1, f2, f3, f4, f5, f6, n, f, f7, f8, f9⟩ := setTransformsAt_fields _ _ _ _ _ h
      have hp : planesOf c.2 = (n, f) := by unfold planesOf; rw [f7]; rfl
      refine ⟨by rw [f2, i0], by rw [f1, i1], fun h => absurd h (by simp), fun _ => ⟨f3, ?_⟩⟩
      simp only [List.map_append, List.map_cons, List.map_nil, Curve.build_snoc, hp]
      cases l with
      | nil =>
        rw [i2 rfl] at hd
        injection hd with hd
        subst hd
        refine ⟨f5, f6, f8, f9, fun s hs => ?_⟩
        simp only [List.nil_append, List.mem_singleton] at hs
        subst hs
        exact ⟨_, f7⟩
      | cons a l' =>
        obtain ⟨j1, j2, j3, j4, j5, j6⟩ := i3 (by simp)
        rw [j1] at hd
        injection hd with hd
        subst hd
        refine ⟨by rw [f5, ← j2]; rfl, by rw [f6, ← j3]; rfl, by rw [f8, ← j4]; rfl, by rw [f9, ← j5]; rfl, fun s hs => ?_⟩
        rcases List.mem_append.1 hs with hs | hs
        · exact j6 s hs
        · simp only [List.mem_singleton] at hs
          subst hs
          exact ⟨_, f7⟩
  obtain ⟨k0, k1, _, k2⟩ := key calls m h
  obtain ⟨k3, k4, k5, k6, k7, k8⟩ := k2 hne
  refine ⟨⟨?_, ?_, ?_, ?_, ?_⟩, k3, k0, k1⟩
  · rw [k4, build_map (fun v : M44 × M44 => lsToSs.mul v.1)]
  · rw [k5, build_map (fun v : M44 × M44 => v.2)]
  · rw [k6, build_map (fun v : M44 × M44 => (planesOf v).1)]
  · rw [k7, build_map (fun v : M44 × M44 => (planesOf v).2)]
  · intro s hs
    exact k8 s (lastFor_mem s.1 s.2 calls (((Curve.build_spec calls).2 s.1 s.2).1 hs))

/-- With the default extents there is nothing else that can fail. -/
theorem setTransformsAt_some (m : Frustum) (hf : m.frame = Frame.default) (d : Bool) (hd : m.defaultState = some d)
    (t : Rat) (ss cs : M44) (r : Rat × Rat) (hp : planes (lsToSs.mul ss) cs = some r) :
    ∃ m', m.setTransformsAt t ss cs = some m' := by
  obtain ⟨n, f⟩ := r
  have hv : ∀ m : Frustum, m.frame = Frame.default → ∃ m', m.computeVoxelSize = some m' := by
    intro m hm
    unfold Frustum.computeVoxelSize
    have : (Cont.trunc m.frame.res.z).toNat = 1 := by rw [hm]; decide +kernel
    simp only [this]
    exact ⟨_, rfl⟩
  unfold Frustum.setTransformsAt
  rw [hd]
  simp only [hp]
  apply hv
  cases d <;> exact hf

theorem runCalls_some (m0 : Frustum) (hf : m0.frame = Frame.default) (d : Bool) (hd : m0.defaultState = some d) :
    ∀ calls : List (Rat × M44 × M44), (∀ s ∈ calls, ∃ r, planes (lsToSs.mul s.2.1) s.2.2 = some r) →
      ∃ m, runCalls m0 calls = some m := by
  intro calls
  induction calls generalizing m0 d with
  | nil => intro _; exact ⟨m0, rfl⟩
  | cons c l ih =>
    intro h
    obtain ⟨r, hr⟩ := h c (by simp)
    obtain ⟨m1, h1⟩ := setTransformsAt_some m0 hf d hd c.1 c.2.1 c.2.2 r hr
    obtain ⟨_, _, f1, _, f3, _⟩ := setTransformsAt_fields _ _ _ _ _ h1
    obtain ⟨m, hm⟩ := ih m1 (by rw [f1, hf]) false f3 (fun s hs => h s (List.mem_cons_of_mem _ hs))
    refine ⟨m, ?_⟩
    unfold runCalls at hm ⊢
    rw [List.foldlM_cons, h1]
    exact hm

/-! ## Frustum entries -/

theorem frustum_isSome : ∀ (ss cs : List BSample) (i : Nat),
    (frustumSampleEntries i ss cs).isSome = decide (ss.length ≤ cs.length) ∧
    (hFrustumSamples i ss cs).isSome = decide (ss.length ≤ cs.length)
  | [], _, _ => by simp [frustumSampleEntries, hFrustumSamples]
  | _ :: _, [], _ => by simp [frustumSampleEntries, hFrustumSamples]
  | s :: ss, c :: cs, i => by
    have := frustum_isSome ss cs (i + 1)
    simp [frustumSampleEntries, hFrustumSamples, this]

theorem frustum_names : ∀ (ss cs : List BSample) (i : Nat) (es : List Entry), frustumSampleEntries i ss cs = some es →
    ∀ e ∈ es, numbered (nameOf e)
  | [], _, _, es, h => by
    simp only [frustumSampleEntries, Option.some.injEq] at h
    subst h; simp
  | _ :: _, [], _, es, h => by simp [frustumSampleEntries] at h
  | s :: ss, c :: cs, i, es, h => by
    simp only [frustumSampleEntries, Option.map_eq_some_iff] at h
    obtain ⟨es', h', rfl⟩ := h
    intro e he
    simp only [List.mem_cons] at he
    rcases he with rfl | rfl | rfl | he
    · exact ⟨i, Or.inl rfl⟩
    · exact ⟨i, Or.inr (Or.inr (Or.inl rfl))⟩
    · exact ⟨i, Or.inr (Or.inr (Or.inr rfl))⟩
    · exact frustum_names ss cs (i + 1) es' h' e he

theorem numbered_take (nm : Name) (h : numbered nm) : nm.take 3 ∈ [[116, 105, 109], [109, 97, 116], [115, 99, 114],
    ([99, 97, 109] : Name)] := by
  obtain ⟨i, rfl | rfl | rfl | rfl⟩ := h
  · rw [take_time]; simp
  · rw [take_matrix]; simp
  · rw [take_screen]; simp
  · rw [take_camera]; simp

theorem numbered_ne (nm : Name) (h : numbered nm) : nm ≠ kZDist ∧ nm ≠ kNumSamples := by
  have := numbered_take nm h
  constructor <;> rintro rfl <;> revert this <;> decide

/-! ## HDF5 -/

theorem hget_hit (nm : Name) (v : HVal) (g : HGroup) : hget ((nm, v) :: g) nm = some v := by simp [hget]
theorem hget_miss (nm : Name) (p : Name × HVal) (g : HGroup) (h : p.1 ≠ nm) : hget (p :: g) nm = hget g nm := by
  simp [hget, h]

theorem hmatrix_first (l : List BSample) : ∀ (i k : Nat) (s : BSample), l[k]? = some s →
    hget (hMatrixSamples i l) (timeName (i + k)) = some (.float s.1) ∧
    hget (hMatrixSamples i l) (matrixName (i + k)) = some (.array4x4 s.2) := by
  induction l with
  | nil => intro i k s h; simp at h
  | cons a l ih =>
    intro i k s h
    simp only [hMatrixSamples]
    cases k with
    | zero =>
      simp only [List.getElem?_cons_zero, Option.some.injEq] at h
      subst h
      show hget _ (timeName i) = _ ∧ hget _ (matrixName i) = _
      rw [hget_hit, hget_miss _ _ _ (by show timeName i ≠ _; names), hget_hit]
      exact ⟨rfl, rfl⟩
    | succ k =>
      simp only [List.getElem?_cons_succ] at h
      have := ih (i + 1) k s h
      rw [show i + 1 + k = i + (k + 1) by omega] at this
      rw [hget_miss _ _ _ (by show timeName i ≠ _; rw [ne_eq, timeName_inj]; omega),
        hget_miss _ _ _ (by show matrixName i ≠ _; names),
        hget_miss _ _ _ (by show timeName i ≠ _; names),
        hget_miss _ _ _ (by show matrixName i ≠ _; rw [ne_eq, matrixName_inj]; omega)]
      exact this

theorem hmatrix_loop (g : HGroup) : ∀ (l : List BSample) (i : Nat), (∀ (k : Nat) (s : BSample), l[k]? = some s →
      hget g (timeName (i + k)) = some (.float s.1) ∧ hget g (matrixName (i + k)) = some (.array4x4 s.2)) →
    hReadMatrixSamples g i l.length = .ok l := by
  intro l
  induction l with
  | nil => intro i _; rfl
  | cons a l ih =>
    intro i h
    obtain ⟨h1, h2⟩ := h 0 a rfl
    have h3 := ih (i + 1) (fun k s hk => by
      have := h (k + 1) s hk
      rwa [show i + (k + 1) = i + 1 + k by omega] at this)
    simp only [List.length_cons, hReadMatrixSamples, hgetFloat, hget4x4]
    rw [Nat.add_zero] at h1 h2
    rw [h1, h2, h3]
    rfl

theorem hget_samples_none (l : List BSample) (nm : Name) (h : ∀ i, timeName i ≠ nm ∧ matrixName i ≠ nm) :
    ∀ i, hget (hMatrixSamples i l) nm = none := by
  induction l with
  | nil => intro i; rfl
  | cons a l ih =>
    intro i
    simp only [hMatrixSamples]
    rw [hget_miss _ _ _ (h i).1, hget_miss _ _ _ (h i).2, ih]

theorem hReadMatrix_ok (l : List BSample) :
    hReadMatrix (hWriteMatrix l) = .ok ((curveVal l).map matrixOf) := by
  have h1 : hget (hWriteMatrix l) kMatrixData = none := by
    unfold hWriteMatrix
    rw [hget_miss _ _ _ (by show kNumSamples ≠ _; names)]
    exact hget_samples_none l _ (fun i => ⟨by names, by names⟩) 0
  have h2 : hget (hWriteMatrix l) kNumSamples = some (.int l.length) := hget_hit _ _ _
  have h3 := hmatrix_loop (hWriteMatrix l) l 0 (fun k s hk => by
    unfold hWriteMatrix
    rw [hget_miss _ _ _ (by show kNumSamples ≠ _; names), hget_miss _ _ _ (by show kNumSamples ≠ _; names)]
    exact hmatrix_first l 0 k s hk)
  unfold hReadMatrix hget16 hgetInt
  rw [h1, h2]
  simp only [Option.getD_some, Int.toNat_natCast, h3, Res.bind]

theorem hfrustum_first : ∀ (ss cs : List BSample) (i : Nat) (g rest : HGroup), hFrustumSamples i ss cs = some g →
    ∀ (k : Nat) (s c : BSample), ss[k]? = some s → cs[k]? = some c →
    hget (g ++ rest) (timeName (i + k)) = some (.float s.1) ∧
    hget (g ++ rest) (screenName (i + k)) = some (.array4x4 s.2) ∧
    hget (g ++ rest) (cameraName (i + k)) = some (.array4x4 c.2)
  | [], _, _, _, _, _ => by intro k s c h; simp at h
  | _ :: _, [], _, _, _, h => by simp [hFrustumSamples] at h
  | a :: ss, b :: cs, i, g, rest, hg => by
    simp only [hFrustumSamples, Option.map_eq_some_iff] at hg
    obtain ⟨g', hg', rfl⟩ := hg
    intro k s c hs hc
    simp only [List.cons_append]
    cases k with
    | zero =>
      simp only [List.getElem?_cons_zero, Option.some.injEq] at hs hc
      subst hs; subst hc
      show hget _ (timeName i) = _ ∧ hget _ (screenName i) = _ ∧ hget _ (cameraName i) = _
      rw [hget_hit, hget_miss _ _ _ (by show timeName i ≠ _; names), hget_hit,
        hget_miss _ _ _ (by show timeName i ≠ _; names), hget_miss _ _ _ (by show screenName i ≠ _; names), hget_hit]
      exact ⟨rfl, rfl, rfl⟩
    | succ k =>
      simp only [List.getElem?_cons_succ] at hs hc
      have := hfrustum_first ss cs (i + 1) g' rest hg' k s c hs hc
      rw [show i + 1 + k = i + (k + 1) by omega] at this
      rw [hget_miss _ _ _ (by show timeName i ≠ _; rw [ne_eq, timeName_inj]; omega),
        hget_miss _ _ _ (by show screenName i ≠ _; names), hget_miss _ _ _ (by show cameraName i ≠ _; names),
        hget_miss _ _ _ (by show timeName i ≠ _; names),
        hget_miss _ _ _ (by show screenName i ≠ _; rw [ne_eq, screenName_inj]; omega),
        hget_miss _ _ _ (by show cameraName i ≠ _; names), hget_miss _ _ _ (by show timeName i ≠ _; names),
        hget_miss _ _ _ (by show screenName i ≠ _; names),
        hget_miss _ _ _ (by show cameraName i ≠ _; rw [ne_eq, cameraName_inj]; omega)]
      exact this

theorem hfrustum_loop (g : HGroup) : ∀ (ss cs : List BSample) (i : Nat), ss.length = cs.length →
    (∀ (k : Nat) (s c : BSample), ss[k]? = some s → cs[k]? = some c → hget g (timeName (i + k)) = some (.float s.1) ∧
      hget g (screenName (i + k)) = some (.array4x4 s.2) ∧ hget g (cameraName (i + k)) = some (.array4x4 c.2)) →
    hReadFrustumSamples g i ss.length = .ok (List.zipWith (fun s c => (s.1, s.2, c.2)) ss cs)
  | [], _, _, _, _ => by simp [hReadFrustumSamples]
  | _ :: _, [], _, h, _ => by simp at h
  | a :: ss, b :: cs, i, hl, h => by
    obtain ⟨h1, h2, h3⟩ := h 0 a b rfl rfl
    have h4 := hfrustum_loop g ss cs (i + 1) (by simpa using hl) (fun k s c hs hc => by
      have := h (k + 1) s c hs hc
      rwa [show i + (k + 1) = i + 1 + k by omega] at this)
    simp only [List.length_cons, hReadFrustumSamples, hgetFloat, hget4x4]
    rw [Nat.add_zero] at h1 h2 h3
    rw [h1, h2, h3, h4]
    rfl

theorem hfrustum_keys : ∀ (ss cs : List BSample) (i : Nat) (g : HGroup), hFrustumSamples i ss cs = some g →
    ∀ p ∈ g, numbered p.1
  | [], _, _, g, h => by
    simp only [hFrustumSamples, Option.some.injEq] at h
    subst h; simp
  | _ :: _, [], _, g, h => by simp [hFrustumSamples] at h
  | s :: ss, c :: cs, i, g, h => by
    simp only [hFrustumSamples, Option.map_eq_some_iff] at h
    obtain ⟨g', h', rfl⟩ := h
    intro e he
    simp only [List.mem_cons] at he
    rcases he with rfl | rfl | rfl | he
    · exact ⟨i, Or.inl rfl⟩
    · exact ⟨i, Or.inr (Or.inr (Or.inl rfl))⟩
    · exact ⟨i, Or.inr (Or.inr (Or.inr rfl))⟩
    · exact hfrustum_keys ss cs (i + 1) g' h' e he

theorem distOf_code (d : ZDist) : distOf (distCode d) = some d := by cases d <;> decide

theorem hReadFrustum_ok (k : Rat) (ss cs : List BSample) (d : ZDist) (g : HGroup) (hl : ss.length = cs.length)
    (h : hWriteFrustum ss cs d = some g) :
    hReadFrustum k g = .ok (frustumOf k (List.zipWith (fun s c => (s.1, s.2, c.2)) ss cs) (some d)) := by
  simp only [hWriteFrustum, Option.map_eq_some_iff] at h
  obtain ⟨g', h', rfl⟩ := h
  have h1 : hget ((kNumSamples, HVal.int ss.length) :: (g' ++ [(kZDist, HVal.int (distCode d))])) kNumSamples =
      some (.int ss.length) := hget_hit _ _ _
  have h2 : hget ((kNumSamples, HVal.int ss.length) :: (g' ++ [(kZDist, HVal.int (distCode d))])) kZDist =
      some (.int (distCode d)) := by
    rw [hget_miss _ _ _ (by show kNumSamples ≠ _; names)]
    have hk := hfrustum_keys ss cs 0 g' h'
    clear h' h1
    induction g' with
    | nil => exact hget_hit _ _ _
    | cons p g' ih =>
      rw [List.cons_append, hget_miss _ _ _ (numbered_ne _ (hk p (by simp))).1]
      exact ih (fun p hp => hk p (List.mem_cons_of_mem _ hp))
  have h3 := hfrustum_loop ((kNumSamples, HVal.int ss.length) :: (g' ++ [(kZDist, HVal.int (distCode d))])) ss cs 0 hl
    (fun k s c hs hc => by
      rw [hget_miss _ _ _ (by show kNumSamples ≠ _; names), hget_miss _ _ _ (by show kNumSamples ≠ _; names),
        hget_miss _ _ _ (by show kNumSamples ≠ _; names)]
      exact hfrustum_first ss cs 0 g' _ h' k s c hs hc)
  unfold hReadFrustum hgetInt
  rw [h1, h2]
  simp only [Option.getD_some, Int.toNat_natCast, h3, Res.bind, distOf_code]

theorem curveVal_length (l : List BSample) (c : Curve M44) (h : curveVal l = some c) : c.length = l.length :=
  (mapM_get _ _ _ h).1

/-- The bit patterns of the samples of the two curves, put together, have the values of the table. -/
theorem zip_val : ∀ (T : Curve (M44 × M44)) (ss cs : List BSample), curveVal ss = some (T.map fun s => (s.1, s.2.1)) →
    curveVal cs = some (T.map fun s => (s.1, s.2.2)) →
    (List.zipWith (fun (s c : BSample) => ((s.1, s.2, c.2) : FSample)) ss cs).mapM fsampleVal = some T
  | [], ss, cs, h1, _ => by
    have := curveVal_length _ _ h1
    have : ss = [] := by cases ss <;> simp_all
    subst this
    rfl
  | t :: T, [], _, h1, _ => by simp [curveVal] at h1
  | t :: T, _ :: _, [], _, h2 => by simp [curveVal] at h2
  | t :: T, s :: ss, c :: cs, h1, h2 => by
    simp only [curveVal, List.mapM_cons, List.map_cons, Option.bind_eq_bind, Option.bind_eq_some_iff, Option.pure_def,
      Option.some.injEq, List.cons.injEq] at h1 h2
    obtain ⟨a, ha, l1, hl1, e1, e1'⟩ := h1
    obtain ⟨b, hb, l2, hl2, e2, e2'⟩ := h2
    subst e1 e1' e2 e2'
    have ih := zip_val T ss cs hl1 hl2
    simp only [List.zipWith_cons_cons, List.mapM_cons, ih]
    simp only [sampleVal, Option.bind_eq_some_iff, Option.map_eq_some_iff, Prod.mk.injEq] at ha hb
    obtain ⟨x, hx, y, hy, rfl, rfl⟩ := ha
    obtain ⟨x', hx', z, hz, _, rfl⟩ := hb
    simp only [fsampleVal, hx, hy, hz]
    rfl

end F3D.MappingIO
