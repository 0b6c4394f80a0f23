import Verif.Model.Metadata
import Verif.Proofs.FieldIO

/-!
# Metadata (C45, C46)
-/

namespace F3D.Props
open F3D.Ogawa F3D.Og F3D.FieldIO F3D.Metadata

/-! ## Specification -/

/-- A metadata value of one of the five kinds. -/
inductive MVal where
  | str (v : List UInt8)
  | int (v : Int)
  | float (v : UInt32)
  | vecInt (v : V3i)
  | vecFloat (v : V3f)
deriving DecidableEq, Repr

inductive MKind where
  | str | int | float | vecInt | vecFloat
deriving DecidableEq, Repr

def mkind : MVal → MKind
  | .str _ => .str | .int _ => .int | .float _ => .float | .vecInt _ => .vecInt | .vecFloat _ => .vecFloat

/-- What the getter of the kind finds; `none` if it returns the default it is given (see `C45_getters`). -/
def lookup (m : Meta) (n : Name) : MKind → Option MVal
  | .str => (m.str.get n).map .str
  | .int => (m.int.get n).map .int
  | .float => (m.float.get n).map .float
  | .vecInt => (m.vecInt.get n).map .vecInt
  | .vecFloat => (m.vecFloat.get n).map .vecFloat

/-- The name and value of a call of a setter. -/
def setting : MetaOp → Option (Name × MVal)
  | .vecFloat n v => some (n, .vecFloat v)
  | .float n v => some (n, .float v)
  | .vecInt n v => some (n, .vecInt v)
  | .int n v => some (n, .int v)
  | .str n v => some (n, .str v)
  | .assign _ => none

/-- The value the history of calls, the last call first, leaves for the name and kind: the last one set, unless an
assignment came later. -/
def lastSet (n : Name) (k : MKind) : List MetaOp → Option MVal
  | [] => none
  | .assign x :: _ => lookup x n k
  | op :: ops =>
    match setting op with
    | some (n', v) => if n' = n ∧ mkind v = k then some v else lastSet n k ops
    | none => lastSet n k ops

/-! ## Dictionaries -/

theorem get_set {T : Type} (n : Name) (v : T) (d : Dict T) (n' : Name) :
    (d.set n v).get n' = if n = n' then some v else d.get n' := by
  induction d with
  | nil => simp [Dict.set, Dict.get]
  | cons p d ih =>
    obtain ⟨m, w⟩ := p
    simp only [Dict.set]
    split
    · rename_i h
      subst h
      simp only [Dict.get]
      split <;> rfl
    · rename_i h
      split
      · simp only [Dict.get]
      · simp only [Dict.get, ih]
        by_cases h1 : m = n'
        · rw [if_pos h1, if_neg (by rintro rfl; exact h h1), if_pos h1]
        · rw [if_neg h1, if_neg h1]

/-! ## C45 -/

/-- C45: the getters return the value found, or the default. -/
theorem C45_getters (m : Meta) (n : Name) :
    (∀ d, lookup m n .str = some (.str (m.getStr n d)) ∨ lookup m n .str = none ∧ m.getStr n d = d) ∧
    (∀ d, lookup m n .int = some (.int (m.getInt n d)) ∨ lookup m n .int = none ∧ m.getInt n d = d) ∧
    (∀ d, lookup m n .float = some (.float (m.getFloat n d)) ∨ lookup m n .float = none ∧ m.getFloat n d = d) ∧
    (∀ d, lookup m n .vecInt = some (.vecInt (m.getVecInt n d)) ∨ lookup m n .vecInt = none ∧ m.getVecInt n d = d) ∧
    (∀ d, lookup m n .vecFloat = some (.vecFloat (m.getVecFloat n d)) ∨
      lookup m n .vecFloat = none ∧ m.getVecFloat n d = d) := by
  refine ⟨fun d => ?_, fun d => ?_, fun d => ?_, fun d => ?_, fun d => ?_⟩
  · unfold lookup Meta.getStr; cases m.str.get n <;> simp
  · unfold lookup Meta.getInt; cases m.int.get n <;> simp
  · unfold lookup Meta.getFloat; cases m.float.get n <;> simp
  · unfold lookup Meta.getVecInt; cases m.vecInt.get n <;> simp
  · unfold lookup Meta.getVecFloat; cases m.vecFloat.get n <;> simp

/-- C45: after any history of setter calls and assignments, the metadata of a name and kind is the last value set under
that name and kind (or assigned), whatever was set under other names or in other kinds. -/
theorem C45_last_set (owner : Bool) (ops : List MetaOp) (n : Name) (k : MKind) :
    lookup ((Obj.new owner).run ops).data n k = lastSet n k ops.reverse := by
  unfold Obj.run
  rw [← List.foldr_reverse]
  induction ops.reverse with
  | nil => cases k <;> rfl
  | cons op ops ih =>
    rw [List.foldr_cons]
    generalize List.foldr _ _ ops = o at ih
    cases op with
    | assign x => cases k <;> rfl
    | _ n' v => cases k <;>
      simp only [Obj.step, Obj.changed, Meta.setVecFloat, Meta.setFloat, Meta.setVecInt, Meta.setInt, Meta.setStr,
        lastSet, setting, mkind, lookup, get_set] at ih ⊢ <;> by_cases h : n' = n <;> simp [h, ih]

example : lookup ((Obj.new true).run [.int [97] 1, .str [97] [98], .int [97] 2, .float [98] 3]).data [97] .int =
    some (.int 2) := by decide

/-- C45: the owner is told of every call of a setter, with its name, and of nothing else. -/
theorem C45_notified (owner : Bool) (ops : List MetaOp) :
    ((Obj.new owner).run ops).notified =
      if owner then ops.filterMap (fun op => (setting op).map Prod.fst) else [] := by
  have key : ∀ (ops : List MetaOp) (o : Obj), (o.run ops).notified =
      o.notified ++ if o.owner then ops.filterMap (fun op => (setting op).map Prod.fst) else [] := by
    intro ops
    induction ops with
    | nil => intro o; simp [Obj.run]
    | cons op ops ih =>
      intro o
      have : o.run (op :: ops) = (o.step op).run ops := rfl
      rw [this, ih]
      obtain ⟨d, ow, nt⟩ := o
      cases ow <;> cases op <;> simp [Obj.step, Obj.changed, setting]
  rw [key]
  rfl

/-- The iteration order of the dictionaries: strictly increasing names. -/
def Increasing {T : Type} : Dict T → Prop
  | [] => True
  | [_] => True
  | (m, _) :: (n, w) :: d => nameLt m n = true ∧ Increasing ((n, w) :: d)

theorem nameLt_trichotomy : ∀ a b : Name, a = b ∨ nameLt a b = true ∨ nameLt b a = true
  | [], [] => .inl rfl
  | [], _ :: _ => .inr (.inl rfl)
  | _ :: _, [] => .inr (.inr rfl)
  | a :: as, b :: bs => by
    simp only [nameLt, List.cons.injEq]
    by_cases h1 : a < b
    · simp [h1]
    · by_cases h2 : b < a
      · simp [h2]
      · have : a = b := by
          have h1 := UInt8.not_lt.1 h1
          have h2 := UInt8.not_lt.1 h2
          exact UInt8.le_antisymm h2 h1
        subst this
        simp only [h1, if_false, true_and]
        exact nameLt_trichotomy as bs

theorem increasing_set {T : Type} (n : Name) (v : T) : ∀ d : Dict T, Increasing d → Increasing (d.set n v) ∧
    ∀ m, (∀ p ∈ d, nameLt m p.1 = true) → nameLt m n = true → ∀ p ∈ d.set n v, nameLt m p.1 = true
  | [], _ => ⟨trivial, fun m _ h p hp => by simp [Dict.set] at hp; subst hp; exact h⟩
  | [(m, w)], _ => by
    simp only [Dict.set]
    split
    · rename_i h; subst h; exact ⟨trivial, fun a h1 h2 p hp => by simp at hp; subst hp; exact h2⟩
    · rename_i hne
      split
      · rename_i h
        exact ⟨⟨h, trivial⟩, fun a h1 h2 p hp => by
          simp at hp; rcases hp with rfl | rfl
          · exact h2
          · exact h1 _ (by simp)⟩
      · rename_i h
        refine ⟨⟨?_, trivial⟩, fun a h1 h2 p hp => by
          simp at hp; rcases hp with rfl | rfl
          · exact h1 _ (by simp)
          · exact h2⟩
        rcases nameLt_trichotomy m n with e | e | e
        · exact absurd e hne
        · exact e
        · exact absurd e h
  | (m, w) :: (m2, w2) :: d, hd => by
    obtain ⟨h12, hd'⟩ := hd
    have ih := increasing_set n v ((m2, w2) :: d) hd'
    rw [Dict.set]
    split
    · rename_i h
      subst h
      exact ⟨⟨h12, hd'⟩, fun a h1 h2 p hp => by
        rw [List.mem_cons] at hp
        rcases hp with rfl | hp
        · exact h2
        · exact h1 p (List.mem_cons_of_mem _ hp)⟩
    · rename_i hne
      split
      · rename_i h
        exact ⟨⟨h, h12, hd'⟩, fun a h1 h2 p hp => by
          rw [List.mem_cons] at hp
          rcases hp with rfl | hp
          · exact h2
          · exact h1 p hp⟩
      · rename_i h
        have hmn : nameLt m n = true := by
          rcases nameLt_trichotomy m n with e | e | e
          · exact absurd e hne
          · exact e
          · exact absurd e h
        refine ⟨?_, fun a h1 h2 p hp => ?_⟩
        · have hh : ∃ q d', Dict.set n v ((m2, w2) :: d) = q :: d' ∧ nameLt m q.1 = true := by
            rw [Dict.set]
            split
            · exact ⟨_, _, rfl, hmn⟩
            · split
              · exact ⟨_, _, rfl, hmn⟩
              · exact ⟨_, _, rfl, h12⟩
          obtain ⟨q, d', e, hq⟩ := hh
          rw [e] at ih ⊢
          obtain ⟨qn, qv⟩ := q
          exact ⟨hq, ih.1⟩
        · rw [List.mem_cons] at hp
          rcases hp with rfl | hp
          · exact h1 _ (by simp)
          · exact ih.2 a (fun p hp => h1 p (List.mem_cons_of_mem _ hp)) h2 p hp

/-- The dictionaries of metadata are in order. -/
def InOrder (m : Meta) : Prop :=
  Increasing m.str ∧ Increasing m.int ∧ Increasing m.float ∧ Increasing m.vecInt ∧ Increasing m.vecFloat

/-- C45: iterating over a dictionary visits the names in increasing order (so each once). -/
theorem C45_iteration_order (owner : Bool) (ops : List MetaOp) (ho : ∀ x, MetaOp.assign x ∈ ops → InOrder x) :
    InOrder ((Obj.new owner).run ops).data := by
  have key : ∀ (ops : List MetaOp) (o : Obj), (∀ x, MetaOp.assign x ∈ ops → InOrder x) → InOrder o.data →
      InOrder (o.run ops).data := by
    intro ops
    induction ops with
    | nil => intro o _ h; exact h
    | cons op ops ih =>
      intro o ha h
      refine ih (o.step op) (fun x hx => ha x (List.mem_cons_of_mem _ hx)) ?_
      obtain ⟨h1, h2, h3, h4, h5⟩ := h
      cases op with
      | assign x => exact ha x List.mem_cons_self
      | vecFloat n v => exact ⟨h1, h2, h3, h4, (increasing_set n v _ h5).1⟩
      | float n v => exact ⟨h1, h2, (increasing_set n v _ h3).1, h4, h5⟩
      | vecInt n v => exact ⟨h1, h2, h3, (increasing_set n v _ h4).1, h5⟩
      | int n v => exact ⟨h1, (increasing_set n v _ h2).1, h3, h4, h5⟩
      | str n v => exact ⟨(increasing_set n v _ h1).1, h2, h3, h4, h5⟩
  exact key ops _ ho ⟨trivial, trivial, trivial, trivial, trivial⟩

example : (((Obj.new false).run [.int [98] 1, .int [97] 2, .int [98] 3]).data.int) = [([97], 2), ([98], 3)] := by decide

/-! ## C46 -/

/-- The type and bytes written for a value. -/
def mtype : MVal → DataType
  | .str _ => .string | .int _ => .int32 | .float _ => .float32 | .vecInt _ => .veci32 | .vecFloat _ => .vec32
def mbytes : MVal → List UInt8
  | .str v => v | .int v => encInt v | .float v => encWord v | .vecInt v => encV3i v | .vecFloat v => encV3f v

/-- The value of the first of the kinds string, int, float, vector of ints, vector of floats that has the name. -/
def firstVal (m : Meta) (n : Name) : Option MVal :=
  (lookup m n .str).or <| (lookup m n .int).or <| (lookup m n .float).or <| (lookup m n .vecInt).or (lookup m n .vecFloat)

/-- What is left of a value in a file: strings end at their first NUL. -/
def inFile : MVal → MVal
  | .str v => .str (upToNul v)
  | v => v

/-- Integers that fit their type. -/
def Fits32 (m : Meta) : Prop := (∀ p ∈ m.int, I32 p.2) ∧ (∀ p ∈ m.vecInt, V32 p.2)

/-- All names are not empty and have no NUL. -/
def PlainNames (m : Meta) : Prop := ∀ n k v, lookup m n k = some v → plainName n

theorem get_mem {T : Type} (d : Dict T) (n : Name) (v : T) (h : d.get n = some v) : (n, v) ∈ d := by
  induction d with
  | nil => simp [Dict.get] at h
  | cons p d ih =>
    obtain ⟨m, w⟩ := p
    simp only [Dict.get] at h
    split at h
    · rename_i e; subst e; simp at h; subst h; exact List.mem_cons_self
    · exact List.mem_cons_of_mem _ (ih h)

theorem mem_get {T : Type} (d : Dict T) (n : Name) (v : T) (h : (n, v) ∈ d) : ∃ w, d.get n = some w := by
  induction d with
  | nil => simp at h
  | cons p d ih =>
    obtain ⟨m, w⟩ := p
    simp only [Dict.get]
    split
    · exact ⟨w, rfl⟩
    · rename_i hne
      rw [List.mem_cons] at h
      rcases h with h | h
      · simp at h; exact absurd h.1.symm hne
      · exact ih h

theorem firstOf_dict {T : Type} (t : DataType) (enc : T → List UInt8) (d : Dict T) (n : Name) (rest : List Entry) :
    firstOf .attribute n (d.map (fun p => Entry.attribute p.1 t (enc p.2)) ++ rest) =
      ((d.get n).map fun v => Entry.attribute n t (enc v)).or (firstOf .attribute n rest) := by
  induction d with
  | nil => simp [Dict.get]
  | cons p d ih =>
    obtain ⟨m, w⟩ := p
    simp only [List.map_cons, List.cons_append, Dict.get, firstOf]
    by_cases h : m = n
    · subst h; simp [kindOf, nameOf]
    · rw [List.find?_cons_of_neg (by simp [nameOf, h]), if_neg h]
      exact ih

theorem firstOf_entries (m : Meta) (n : Name) :
    firstOf .attribute n (entries m) = (firstVal m n).map fun v => Entry.attribute n (mtype v) (mbytes v) := by
  have h := firstOf_dict .vec32 encV3f m.vecFloat n []
  rw [List.append_nil] at h
  unfold entries
  rw [List.append_assoc, List.append_assoc, List.append_assoc, firstOf_dict .string (fun v => v), firstOf_dict, firstOf_dict,
    firstOf_dict, h]
  unfold firstVal lookup
  cases m.str.get n <;> cases m.int.get n <;> cases m.float.get n <;> cases m.vecInt.get n <;>
    cases m.vecFloat.get n <;> rfl

theorem entries_names (m : Meta) (h : PlainNames m) : ∀ e ∈ entries m, plainName (nameOf e) := by
  intro e he
  simp only [entries, List.mem_append, List.mem_map] at he
  rcases he with (((⟨p, hp, rfl⟩ | ⟨p, hp, rfl⟩) | ⟨p, hp, rfl⟩) | ⟨p, hp, rfl⟩) | ⟨p, hp, rfl⟩
  · obtain ⟨w, hw⟩ := mem_get _ _ _ hp; exact h p.1 .str (.str w) (by simp [lookup, hw])
  · obtain ⟨w, hw⟩ := mem_get _ _ _ hp; exact h p.1 .int (.int w) (by simp [lookup, hw])
  · obtain ⟨w, hw⟩ := mem_get _ _ _ hp; exact h p.1 .float (.float w) (by simp [lookup, hw])
  · obtain ⟨w, hw⟩ := mem_get _ _ _ hp; exact h p.1 .vecInt (.vecInt w) (by simp [lookup, hw])
  · obtain ⟨w, hw⟩ := mem_get _ _ _ hp; exact h p.1 .vecFloat (.vecFloat w) (by simp [lookup, hw])

theorem entries_attributes (m : Meta) : ∀ e ∈ entries m, kindOf e = .attribute := by
  intro e he
  simp only [entries, List.mem_append, List.mem_map] at he
  rcases he with (((⟨p, hp, rfl⟩ | ⟨p, hp, rfl⟩) | ⟨p, hp, rfl⟩) | ⟨p, hp, rfl⟩) | ⟨p, hp, rfl⟩ <;> rfl

theorem decWord_encWord (w : UInt32) : decWord (encWord w) = w := by
  unfold decWord encWord
  rw [unle_le32 _ w.toNat_lt]
  exact UInt32.ofNat_toNat

theorem decV3f_encV3f (v : V3f) : decV3f (encV3f v) = v := by
  obtain ⟨x, y, z⟩ := v
  have e1 : (encV3f ⟨x, y, z⟩).take 4 = encWord x := rfl
  have e2 : ((encV3f ⟨x, y, z⟩).drop 4).take 4 = encWord y := rfl
  have e3 : ((encV3f ⟨x, y, z⟩).drop 8).take 4 = encWord z := rfl
  rw [decV3f, e1, e2, e3, decWord_encWord, decWord_encWord, decWord_encWord]

/-- Setting a value of any kind. -/
def put (m : Meta) (n : Name) : MVal → Meta
  | .str v => m.setStr n v
  | .int v => m.setInt n v
  | .float v => m.setFloat n v
  | .vecInt v => m.setVecInt n v
  | .vecFloat v => m.setVecFloat n v

theorem lookup_put (m : Meta) (n n' : Name) (v : MVal) (k : MKind) :
    lookup (put m n v) n' k = if n = n' ∧ mkind v = k then some v else lookup m n' k := by
  cases v <;> cases k <;>
    simp only [put, Meta.setVecFloat, Meta.setFloat, Meta.setVecInt, Meta.setInt, Meta.setStr, lookup, mkind, get_set] <;>
    by_cases h : n = n' <;> simp [h]

/-- Integers of a value fit. -/
def FitsVal : MVal → Prop
  | .int v => I32 v
  | .vecInt v => V32 v
  | _ => True

theorem firstVal_fits (m : Meta) (n : Name) (v : MVal) (hm : Fits32 m) (h : firstVal m n = some v) : FitsVal v := by
  unfold firstVal lookup at h
  cases h1 : m.str.get n with
  | some w => simp [h1] at h; subst h; trivial
  | none =>
    cases h2 : m.int.get n with
    | some w => simp [h1, h2] at h; subst h; exact hm.1 _ (get_mem _ _ _ h2)
    | none =>
      cases h3 : m.float.get n with
      | some w => simp [h1, h2, h3] at h; subst h; trivial
      | none =>
        cases h4 : m.vecInt.get n with
        | some w => simp [h1, h2, h3, h4] at h; subst h; exact hm.2 _ (get_mem _ _ _ h4)
        | none =>
          simp [h1, h2, h3, h4] at h
          obtain ⟨w, _, rfl⟩ := h
          trivial

/-- One name of the file is read. -/
theorem readOne_ok (g : Name) (m m0 : Meta) (hp : PlainNames m) (hm : Fits32 m) (n : Name) :
    readOne (groupKids g (entries m)) m0 n = some (if (47 : UInt8) ∈ n then m0 else
      match firstVal m n with | some v => put m0 n (inFile v) | none => m0) := by
  have hn := entries_names m hp
  by_cases hs : (47 : UInt8) ∈ n
  · rw [if_pos hs]
    -- the first component of the path is no group of the metadata
    have hf : find .attribute n (groupKids g (entries m)) = some none := by
      obtain ⟨p, rest, rfl, hp⟩ : ∃ p rest, n = p ++ 47 :: rest ∧ (47 : UInt8) ∉ p := by
        clear hn
        induction n with
        | nil => simp at hs
        | cons c cs ih =>
          by_cases hc : c = 47
          · exact ⟨[], cs, by simp [hc], by simp⟩
          · have : (47 : UInt8) ∈ cs := by
              rw [List.mem_cons] at hs
              rcases hs with h | h
              · exact absurd h.symm hc
              · exact h
            obtain ⟨p, rest, e, hp⟩ := ih this
            exact ⟨c :: p, rest, by simp [e], by simp [hp]; exact fun e => hc e.symm⟩
      refine (C35_path .attribute p rest g (entries m) hp hn).2 ?_
      simp only [firstOf, List.find?_eq_none]
      intro e he
      simp [entries_attributes m e he]
    have hfound : ∀ t, found t n (groupKids g (entries m)) = some none := by
      intro t; simp [found, findTyped, hf]
    simp [readOne, hfound]
  · rw [if_neg hs]
    cases hv : firstVal m n with
    | none =>
      have : ∀ e ∈ entries m, ¬ (kindOf e = .attribute ∧ nameOf e = n) := by
        have := firstOf_entries m n
        rw [hv, Option.map_none, firstOf, List.find?_eq_none] at this
        intro e he; simpa using this e he
      have hfound : ∀ t, found t n (groupKids g (entries m)) = some none := by
        intro t; simp [found, (C36_absent g n t _ hs hn this).1]
      simp [readOne, hfound]
    | some v =>
      have hf := firstOf_entries m n
      rw [hv, Option.map_some] at hf
      obtain ⟨⟨a, h1, h2⟩, h3, _⟩ := C36_attribute_round_trip g n (mtype v) (mbytes v) _ hs hn hf
        (by intro hne; cases v <;> first | exact absurd rfl hne | rfl)
      have hown : found (mtype v) n (groupKids g (entries m)) =
          some (some (if mtype v = .string then upToNul (mbytes v) else mbytes v)) := by
        simp [found, h1, h2]
      have hother : ∀ t, t ≠ mtype v → found t n (groupKids g (entries m)) = some none := by
        intro t ht; simp [found, h3 t ht]
      have hfit := firstVal_fits m n v hm hv
      cases v with
      | str v =>
        simp [mtype, mbytes] at hown hother
        simp [readOne, hown, hother, put, inFile]
      | int v =>
        simp [mtype, mbytes] at hown hother
        simp [readOne, hown, hother, put, inFile, decInt_encInt v hfit]
      | float v =>
        simp [mtype, mbytes] at hown hother
        simp [readOne, hown, hother, put, inFile, decWord_encWord]
      | vecInt v =>
        simp [mtype, mbytes] at hown hother
        simp [readOne, hown, hother, put, inFile, decV3i_encV3i v hfit]
      | vecFloat v =>
        simp [mtype, mbytes] at hown hother
        simp [readOne, hown, hother, put, inFile, decV3f_encV3f]

theorem mkind_inFile (v : MVal) : mkind (inFile v) = mkind v := by cases v <;> rfl

/-- C46, in full: what is read of metadata written to a group, for metadata of any contents with proper names. Of the
values of one name only that of the first kind survives, strings end at their first NUL, and a name with a `/` is lost.
Metadata `m0` that the reading object had before is kept where nothing is read. -/
theorem C46_read_back (g : Name) (m m0 : Meta) (hp : PlainNames m) (hm : Fits32 m) :
    ∃ m', readMeta (groupKids g (entries m)) m0 = some m' ∧ ∀ n k, lookup m' n k =
      match firstVal m n with
      | some v => if (47 : UInt8) ∉ n ∧ mkind v = k then some (inFile v) else lookup m0 n k
      | none => lookup m0 n k := by
  have hn := entries_names m hp
  have hl := (C35_listing .attribute g (entries m) hn).1
  have hfilter : (entries m).filter (fun e => kindOf e = .attribute) = entries m := by
    rw [List.filter_eq_self]; intro e he; simp [entries_attributes m e he]
  rw [hfilter] at hl
  have key : ∀ (l : List Name) (m0 : Meta), ∃ m', l.foldlM (readOne (groupKids g (entries m))) m0 = some m' ∧
      ∀ n k, lookup m' n k = match firstVal m n with
        | some v => if n ∈ l ∧ (47 : UInt8) ∉ n ∧ mkind v = k then some (inFile v) else lookup m0 n k
        | none => lookup m0 n k := by
    intro l
    induction l with
    | nil =>
      intro m0
      refine ⟨m0, rfl, fun n k => ?_⟩
      split <;> simp
    | cons a l ih =>
      intro m0
      rw [List.foldlM_cons, readOne_ok g m m0 hp hm a]
      simp only [Option.bind_eq_bind, Option.bind_some]
      obtain ⟨m', e, h⟩ := ih (if (47 : UInt8) ∈ a then m0 else
        match firstVal m a with | some v => put m0 a (inFile v) | none => m0)
      refine ⟨m', e, fun n k => ?_⟩
      rw [h n k]
      by_cases hs : (47 : UInt8) ∈ a
      · rw [if_pos hs]
        by_cases hna : n = a
        · subst hna; split <;> simp [hs]
        · split <;> simp [hna]
      · rw [if_neg hs]
        by_cases hna : n = a
        · subst hna
          cases hv : firstVal m n with
          | none => simp
          | some v =>
            simp only [lookup_put, mkind_inFile, List.mem_cons, true_or, true_and, hs, not_false_eq_true]
            by_cases hk : mkind v = k <;> simp [hk]
        · have hlook : lookup (match firstVal m a with | some v => put m0 a (inFile v) | none => m0) n k =
              lookup m0 n k := by
            split
            · rw [lookup_put]; simp [Ne.symm hna]
            · rfl
          rw [hlook]
          split <;> simp [hna]
  obtain ⟨m', e, h⟩ := key ((entries m).map nameOf) m0
  refine ⟨m', by rw [readMeta, hl]; exact e, fun n k => ?_⟩
  rw [h n k]
  cases hv : firstVal m n with
  | none => rfl
  | some v =>
    have : n ∈ (entries m).map nameOf := by
      have hf := firstOf_entries m n
      rw [hv, Option.map_some] at hf
      have := List.mem_of_find?_eq_some hf
      exact List.mem_map.2 ⟨_, this, rfl⟩
    simp [this]

/-- No name is used in two kinds, and none contains a `/`. -/
def DistinctNames (m : Meta) : Prop := ∀ n k k' v v', lookup m n k = some v → lookup m n k' = some v' →
  (47 : UInt8) ∉ n ∧ k = k'

theorem lookup_kind (m : Meta) (n : Name) (k : MKind) (v : MVal) (h : lookup m n k = some v) : mkind v = k := by
  cases k <;> simp [lookup] at h <;> obtain ⟨w, _, rfl⟩ := h <;> rfl

theorem firstVal_some (m : Meta) (n : Name) (v : MVal) (h : firstVal m n = some v) : lookup m n (mkind v) = some v := by
  unfold firstVal at h
  cases h1 : lookup m n .str with
  | some w => rw [h1] at h; simp at h; subst h; rw [lookup_kind m n _ _ h1]; exact h1
  | none =>
    cases h2 : lookup m n .int with
    | some w => rw [h1, h2] at h; simp at h; subst h; rw [lookup_kind m n _ _ h2]; exact h2
    | none =>
      cases h3 : lookup m n .float with
      | some w => rw [h1, h2, h3] at h; simp at h; subst h; rw [lookup_kind m n _ _ h3]; exact h3
      | none =>
        cases h4 : lookup m n .vecInt with
        | some w => rw [h1, h2, h3, h4] at h; simp at h; subst h; rw [lookup_kind m n _ _ h4]; exact h4
        | none =>
          rw [h1, h2, h3, h4] at h
          simp at h
          rw [lookup_kind m n _ _ h]; exact h

theorem firstVal_none (m : Meta) (n : Name) (h : firstVal m n = none) (k : MKind) : lookup m n k = none := by
  unfold firstVal at h
  simp only [Option.or_eq_none_iff] at h
  cases k
  · exact h.1
  · exact h.2.1
  · exact h.2.2.1
  · exact h.2.2.2.1
  · exact h.2.2.2.2

/-- C46: metadata that is read into metadata with entries already: what was written replaces them, and the others stay. -/
theorem C46_into_existing (g : Name) (m m0 : Meta) (hp : PlainNames m) (hm : Fits32 m) (hd : DistinctNames m)
    (hs : ∀ n v, lookup m n .str = some (.str v) → (0 : UInt8) ∉ v) :
    ∃ m', readMeta (groupKids g (entries m)) m0 = some m' ∧
      ∀ n k, lookup m' n k = match lookup m n k with | some v => some v | none => lookup m0 n k := by
  obtain ⟨m', e, h⟩ := C46_read_back g m m0 hp hm
  refine ⟨m', e, fun n k => ?_⟩
  rw [h n k]
  cases hv : firstVal m n with
  | none => rw [firstVal_none m n hv k]
  | some v =>
    have hl := firstVal_some m n v hv
    have hslash := (hd n _ _ v v hl hl).1
    simp only [hslash, not_false_eq_true, true_and]
    by_cases hk : mkind v = k
    · rw [if_pos hk, ← hk, hl]
      cases v with
      | str w => simp only [inFile]; rw [C36_string_without_nul w (hs n w hl)]
      | _ => rfl
    · rw [if_neg hk]
      cases hl' : lookup m n k with
      | none => rfl
      | some v' => exact absurd (hd n _ _ v v' hl hl').2 hk

/-- C46: metadata whose names are unique across the kinds, not empty, and without NUL and `/`, and whose strings have no
NUL, is read back with the same kinds and values, and nothing else. -/
theorem C46_round_trip (g : Name) (m : Meta) (hp : PlainNames m) (hm : Fits32 m) (hd : DistinctNames m)
    (hs : ∀ n v, lookup m n .str = some (.str v) → (0 : UInt8) ∉ v) :
    ∃ m', readMeta (groupKids g (entries m)) Meta.empty = some m' ∧ ∀ n k, lookup m' n k = lookup m n k := by
  obtain ⟨m', e, h⟩ := C46_into_existing g m Meta.empty hp hm hd hs
  refine ⟨m', e, fun n k => ?_⟩
  rw [h n k]
  cases lookup m n k with
  | some v => rfl
  | none => cases k <;> rfl

/-- C46: a name used for a string and an integer: the integer is lost. -/
theorem C46_shared_name_lost (g : Name) (m : Meta) (hp : PlainNames m) (hm : Fits32 m) (n : Name) (v : MVal)
    (hv : firstVal m n = some v) (k : MKind) (hk : k ≠ mkind v) :
    ∃ m', readMeta (groupKids g (entries m)) Meta.empty = some m' ∧ lookup m' n k = none := by
  obtain ⟨m', e, h⟩ := C46_read_back g m Meta.empty hp hm
  refine ⟨m', e, ?_⟩
  rw [h n k, hv]
  simp only [Ne.symm hk, and_false, if_false]
  cases k <;> rfl

/-- C46: an entry of a file whose value has the wrong size is read as zero. -/
theorem C46_wrong_size (g nm : Name) (t : DataType) (v : List UInt8) (es : List Entry) (m : Meta) (hs : (47 : UInt8) ∉ nm)
    (hn : ∀ e ∈ es, plainName (nameOf e)) (hf : firstOf .attribute nm es = some (.attribute nm t v))
    (hv : v.length ≠ t.bytes) :
    (t = .int32 → readOne (groupKids g es) m nm = some (m.setInt nm 0)) ∧
    (t = .float32 → readOne (groupKids g es) m nm = some (m.setFloat nm 0)) ∧
    (t = .veci32 → readOne (groupKids g es) m nm = some (m.setVecInt nm ⟨0, 0, 0⟩)) ∧
    (t = .vec32 → readOne (groupKids g es) m nm = some (m.setVecFloat nm ⟨0, 0, 0⟩)) := by
  have key : t ≠ .string → found t nm (groupKids g es) = some (some (List.replicate t.bytes 0)) ∧
      ∀ t', t' ≠ t → found t' nm (groupKids g es) = some none := by
    intro ht
    obtain ⟨⟨a, h1, h2⟩, h3⟩ := C36_wrong_size g nm t v es hs hn hf ht hv
    exact ⟨by simp [found, h1, h2], fun t' h => by simp [found, h3 t' h]⟩
  refine ⟨?_, ?_, ?_, ?_⟩ <;> rintro rfl <;> obtain ⟨h1, h2⟩ := key (by simp) <;>
    simp only [readOne, h1, h2, ne_eq, reduceCtorEq, not_false_eq_true, Option.bind_some] <;> rfl

example : firstOf .attribute [105] [.attribute [105] .int32 [1, 2]] = some (.attribute [105] .int32 [1, 2]) := by
  simp [firstOf, kindOf, nameOf]

/-- Metadata of all five kinds. -/
def sampleMeta : Meta := ((Obj.new false).run [.str [110] [104, 105], .int [105] (-7), .float [102] 0x3f800000,
  .vecInt [118] ⟨1, -2, 3⟩, .vecFloat [119] ⟨0, 1, 0x80000000⟩]).data

example : lookup sampleMeta [118] .vecInt = some (.vecInt ⟨1, -2, 3⟩) := by decide

theorem sampleMeta_plain : PlainNames sampleMeta ∧ Fits32 sampleMeta ∧ DistinctNames sampleMeta := by
  have h : ∀ n k v, lookup sampleMeta n k = some v → (n, k) ∈
      [([110], MKind.str), ([105], .int), ([102], .float), ([118], .vecInt), ([119], .vecFloat)] := by
    intro n k v h
    cases k <;> simp only [lookup, Option.map_eq_some_iff] at h <;> obtain ⟨w, hw, rfl⟩ := h <;>
      have := get_mem _ _ _ hw <;> simp [sampleMeta, Obj.run, Obj.step, Obj.changed, Obj.new, Meta.empty, Meta.setStr,
        Meta.setInt, Meta.setFloat, Meta.setVecInt, Meta.setVecFloat, Dict.set] at this <;> simp [this]
  refine ⟨fun n k v hl => ?_, ?_, fun n k k' v v' h1 h2 => ?_⟩
  · have := h n k v hl
    simp at this
    rcases this with ⟨rfl, _⟩ | ⟨rfl, _⟩ | ⟨rfl, _⟩ | ⟨rfl, _⟩ | ⟨rfl, _⟩ <;> simp [plainName]
  · unfold Fits32 V32 I32
    decide
  · have a := h n k v h1
    have b := h n k' v' h2
    simp at a b
    rcases a with ⟨rfl, rfl⟩ | ⟨rfl, rfl⟩ | ⟨rfl, rfl⟩ | ⟨rfl, rfl⟩ | ⟨rfl, rfl⟩ <;> simp at b <;> simp [b]

/-- C46, **disagreement**: an entry with the empty name hides the metadata written after it. -/
theorem C46_empty_name_hides : ∃ m : Meta, lookup m [105] .int = some (.int 5) ∧ lookup m [] .str = some (.str [120]) ∧
    ∃ m', readMeta (groupKids [103] (entries m)) Meta.empty = some m' ∧ ∀ n k, lookup m' n k = none := by
  refine ⟨⟨[], [], [], [([105], 5)], [([], [120])]⟩, by decide, by decide, Meta.empty, ?_, ?_⟩
  · simp [readMeta, entries, groupKids, names, names.go, valid, getData, blob, Entry.encode, readString, readData, le32,
      Kind.code, cstr, readOne, found, findTyped, find, findComponents, components, scan, encInt]
  · intro n k; cases k <;> rfl

end F3D.Props
