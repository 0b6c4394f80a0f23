import Verif.Spec.Ogawa

/-! Bytes, records and the writer invariant of the Ogawa model. -/

namespace F3D.Ogawa

@[simp] theorem le64_length (n : Nat) : (le64 n).length = 8 := rfl

theorem unle_le64 (n : Nat) (h : n < 2 ^ 64) : unle (le64 n) = n := by
  simp only [le64, unle, UInt8.toNat_ofNat']
  omega

theorem flatMap_le64_length (l : List Nat) : (l.flatMap le64).length = l.length * 8 := by
  induction l with
  | nil => rfl
  | cons a l ih => simp only [List.flatMap_cons, List.length_append, ih, le64_length, List.length_cons]; omega

theorem words_flatMap (l : List Nat) (h : ∀ x ∈ l, x < 2 ^ 64) (rest : List UInt8) :
    words l.length (l.flatMap le64 ++ rest) = l := by
  induction l with
  | nil => rfl
  | cons a l ih =>
    simp only [List.length_cons, words, List.flatMap_cons, List.append_assoc]
    rw [List.take_append_of_le_length (by simp), List.drop_append_of_le_length (by simp)]
    rw [List.take_of_length_le (by simp), List.drop_of_length_le (by simp), List.nil_append,
      unle_le64 _ (h a (by simp)), ih (fun x hx => h x (by simp [hx]))]

/-! ## Writes -/

theorem writeAt_end (f : File) (bs : List UInt8) : writeAt f f.length bs = f ++ bs := by
  unfold writeAt
  simp

theorem writeAt_mid (A X B bs : File) (a : Nat) (h : a + bs.length ≤ X.length) :
    writeAt (A ++ X ++ B) (A.length + a) bs = A ++ writeAt X a bs ++ B := by
  unfold writeAt
  have e1 : A.length + a - (A ++ X ++ B).length = 0 := by simp; omega
  have e2 : a - X.length = 0 := by omega
  rw [e1, e2]
  simp only [List.replicate_zero, List.append_nil, List.append_assoc]
  rw [List.take_append, List.take_append, List.drop_append, List.drop_append]
  have h1 : A.length + a - A.length = a := by omega
  have h2 : A.length + a + bs.length - A.length = a + bs.length := by omega
  have h3 : a - X.length = 0 := by omega
  have h4 : a + bs.length - X.length = 0 := by omega
  rw [h1, h2, h3, h4, List.take_of_length_le (by omega), List.drop_of_length_le (by omega)]
  simp

theorem writeAt_length (f : File) (p : Nat) (bs : List UInt8) (h : p + bs.length ≤ f.length) :
    (writeAt f p bs).length = f.length := by
  unfold writeAt
  have e1 : p - f.length = 0 := by omega
  simp [e1]; omega

theorem writeAt_table (kids : List Nat) (i p : Nat) (h : i < kids.length) :
    writeAt (kids.flatMap le64) (i * 8) (le64 p) = (kids.set i p).flatMap le64 := by
  induction kids generalizing i with
  | nil => simp at h
  | cons k ks ih =>
    cases i with
    | zero =>
      simp only [Nat.zero_mul, List.flatMap_cons, List.set_cons_zero]
      unfold writeAt
      simp
      rw [List.drop_append_of_le_length (by simp), List.drop_of_length_le (by simp)]; simp
    | succ i =>
      simp only [List.flatMap_cons, List.set_cons_succ]
      have := writeAt_mid (le64 k) (ks.flatMap le64) [] (le64 p) (i * 8)
        (by rw [flatMap_le64_length]; simp only [le64_length, List.length_cons] at *; omega)
      simp only [List.append_nil, le64_length] at this
      rw [show (i + 1) * 8 = 8 + i * 8 from by omega, this, ih i (by simpa using h)]

/-! ## Records -/

/-- What has been appended to the file, in order. -/
inductive Rec where
  | data (bs : List UInt8)
  | group (g : Nat) (kids : List Nat)
deriving DecidableEq, Repr

def Rec.enc : Rec → List UInt8
  | .data bs => le64 bs.length ++ bs
  | .group _ kids => le64 kids.length ++ kids.flatMap le64

def posOf (rs : List Rec) (r : Nat) : Nat := 16 + ((rs.take r).flatMap Rec.enc).length

def hdr (flag : UInt8) (root : Nat) : List UInt8 := [79, 103, 97, 119, 97, flag, 0, 1] ++ le64 root

@[simp] theorem hdr_length (f r) : (hdr f r).length = 16 := rfl

def layout (flag : UInt8) (root : Nat) (rs : List Rec) : File := hdr flag root ++ rs.flatMap Rec.enc

theorem layout_length (fl r rs) : (layout fl r rs).length = posOf rs rs.length := by
  simp [layout, posOf]

theorem enc_pos (r : Rec) : 8 ≤ r.enc.length := by cases r <;> simp [Rec.enc]

theorem posOf_mono (rs : List Rec) {a b : Nat} (h : a ≤ b) : posOf rs a ≤ posOf rs b := by
  unfold posOf
  have : rs.take b = rs.take a ++ (rs.take b).drop a := by
    conv => lhs; rw [← List.take_append_drop a (rs.take b)]
    rw [List.take_take, Nat.min_eq_left h]
  rw [this, List.flatMap_append, List.length_append]; omega

theorem posOf_succ (rs : List Rec) (r : Nat) (x : Rec) (h : rs[r]? = some x) :
    posOf rs (r + 1) = posOf rs r + x.enc.length := by
  unfold posOf
  rw [List.take_add_one, h]
  simp [List.flatMap_append]; omega

theorem posOf_inj (rs : List Rec) {a b : Nat} {x y : Rec} (ha : rs[a]? = some x) (hb : rs[b]? = some y)
    (h : posOf rs a = posOf rs b) : a = b := by
  rcases Nat.lt_trichotomy a b with hl | he | hg
  · have h1 := posOf_succ rs a x ha
    have h2 := posOf_mono rs (show a + 1 ≤ b from hl)
    have := enc_pos x
    omega
  · exact he
  · have h1 := posOf_succ rs b y hb
    have h2 := posOf_mono rs (show b + 1 ≤ a from hg)
    have := enc_pos y
    omega

theorem posOf_append (rs : List Rec) (x : List Rec) (r : Nat) (h : r ≤ rs.length) : posOf (rs ++ x) r = posOf rs r := by
  unfold posOf
  rw [List.take_append_of_le_length h]

theorem posOf_set (rs : List Rec) (k r : Nat) (x y : Rec) (hk : rs[k]? = some x) (he : y.enc.length = x.enc.length) :
    posOf (rs.set k y) r = posOf rs r := by
  unfold posOf
  congr 1
  rw [List.take_set]
  by_cases hr : k < r
  · have hk' : (rs.take r)[k]? = some x := by rw [List.getElem?_take]; simp [hr, hk]
    generalize rs.take r = l at hk'
    clear hk hr
    induction l generalizing k with
    | nil => simp at hk'
    | cons a l ih =>
      cases k with
      | zero => simp at hk'; subst hk'; simp [he]
      | succ k => simp only [List.set_cons_succ, List.flatMap_cons, List.length_append]
                  rw [ih k (by simpa using hk')]
  · rw [List.set_eq_of_length_le (by rw [List.length_take]; omega)]

/-- The file splits around a record. -/
theorem layout_split (fl root rs r x) (h : rs[r]? = some x) :
    ∃ A B, layout fl root rs = A ++ x.enc ++ B ∧ A.length = posOf rs r ∧
      ∀ y, layout fl root (rs.set r y) = A ++ y.enc ++ B := by
  have hr : r < rs.length := by
    rcases Nat.lt_or_ge r rs.length with h1 | h1
    · exact h1
    · rw [List.getElem?_eq_none h1] at h; simp at h
  refine ⟨hdr fl root ++ (rs.take r).flatMap Rec.enc, (rs.drop (r + 1)).flatMap Rec.enc, ?_, ?_, ?_⟩
  · have e : rs = rs.take r ++ x :: rs.drop (r + 1) := by
      have hx : rs[r] = x := by rw [List.getElem?_eq_getElem hr] at h; simpa using h
      rw [← hx]; simp
    conv => lhs; rw [layout, e]
    simp [List.flatMap_append]
  · simp [posOf]
  · intro y
    rw [layout, List.set_eq_take_append_cons_drop]
    simp [hr, List.flatMap_append]

theorem layout_patch (fl root rs r g kids) (i p : Nat) (h : rs[r]? = some (.group g kids)) (hi : i < kids.length) :
    writeAt (layout fl root rs) (posOf rs r + (i + 1) * 8) (le64 p) =
      layout fl root (rs.set r (.group g (kids.set i p))) := by
  obtain ⟨A, B, h1, h2, h3⟩ := layout_split fl root rs r _ h
  have hl := flatMap_le64_length kids
  rw [h3, h1, ← h2, writeAt_mid _ _ _ _ _ (by simp only [Rec.enc, List.length_append, le64_length]; omega)]
  congr 2
  simp only [Rec.enc, List.length_set]
  have := writeAt_mid (le64 kids.length) (kids.flatMap le64) [] (le64 p) (i * 8) (by rw [hl, le64_length]; omega)
  simp only [List.append_nil, le64_length] at this
  rw [show (i + 1) * 8 = 8 + i * 8 from by omega, this, writeAt_table _ _ _ hi]

theorem layout_root (fl root rs) (p : Nat) : writeAt (layout fl root rs) 8 (le64 p) = layout fl p rs := by
  have := writeAt_mid [79, 103, 97, 119, 97, fl, 0, 1] (le64 root) (rs.flatMap Rec.enc) (le64 p) 0 (by simp)
  simp only [layout, hdr]
  refine Eq.trans this ?_
  rw [show writeAt (le64 root) 0 (le64 p) = le64 p from by unfold writeAt; simp]

theorem layout_flag (fl root rs) : writeAt (layout fl root rs) 5 [255] = layout 255 root rs := by
  have := writeAt_mid [79, 103, 97, 119, 97] ([fl, 0, 1] ++ le64 root) (rs.flatMap Rec.enc) [255] 0 (by simp)
  simp only [layout, hdr]
  simp only [List.cons_append, List.nil_append] at *
  refine Eq.trans this ?_
  simp [writeAt]

theorem layout_append (fl root rs x) : layout fl root rs ++ x.enc = layout fl root (rs ++ [x]) := by
  simp [layout, List.flatMap_append]

/-! ## Reading records -/

theorem readAt_mid (A X B : File) (a k : Nat) (h : a + k ≤ X.length) :
    readAt (A ++ X ++ B) (A.length + a) k = some ((X.drop a).take k) := by
  unfold readAt
  rw [if_pos (by simp; omega)]
  congr 1
  rw [List.append_assoc, List.drop_append, List.drop_append]
  have h1 : A.length + a - A.length = a := by omega
  have h3 : a - X.length = 0 := by omega
  rw [h1, h3, List.drop_of_length_le (by omega), List.nil_append, List.drop_zero,
    List.take_append_of_le_length (by rw [List.length_drop]; omega)]

theorem readAt_rec (fl root rs r x) (h : rs[r]? = some x) (a k : Nat) (hk : a + k ≤ x.enc.length) :
    readAt (layout fl root rs) (posOf rs r + a) k = some ((x.enc.drop a).take k) := by
  obtain ⟨A, B, h1, h2, -⟩ := layout_split fl root rs r _ h
  rw [h1, ← h2, readAt_mid _ _ _ _ _ hk]

theorem readAt_count (fl root rs r x) (h : rs[r]? = some x) :
    readAt (layout fl root rs) (posOf rs r) 8 = some (x.enc.take 8) := by
  have := readAt_rec fl root rs r x h 0 8 (by have := enc_pos x; omega)
  simpa using this

end F3D.Ogawa
