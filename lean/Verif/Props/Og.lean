import Verif.Model.Og
import Verif.Props.Ogawa

/-!
# Named lookup and attributes (C35, C36)

The specification speaks of the entries a client wrote into a group, in order: their kind, name, type and
value. `firstOf` is the first entry of a kind with a name.
-/

namespace F3D.Props
open F3D.Ogawa F3D.Og

/-! ## Specification -/

def kindOf : Entry → Kind
  | .group .. => .group
  | .attribute .. => .attribute
  | .dataset .. => .dataset
  | .compressed .. => .compressed

def nameOf : Entry → Name
  | .group n _ => n
  | .attribute n _ _ => n
  | .dataset n _ _ => n
  | .compressed n _ _ => n

/-- The first entry of the kind with the name. -/
def firstOf (k : Kind) (nm : Name) (es : List Entry) : Option Entry :=
  es.find? fun e => kindOf e = k && nameOf e = nm

/-- A name that survives the file format: not empty, no NUL character. -/
def plainName (nm : Name) : Prop := nm ≠ [] ∧ (0 : UInt8) ∉ nm

/-- The children, in the file, of a group with the name and entries. -/
def groupKids (nm : Name) (es : List Entry) : List Tree :=
  blob nm ++ [.data (le32 Kind.group.code)] ++ es.map Entry.encode

/-- The text of a string up to its first NUL. -/
def upToNul (s : List UInt8) : List UInt8 := s.takeWhile (· ≠ 0)

/-- `ks` are the children of the entry in the file. -/
def Holds (ks : List Tree) (e : Entry) : Prop := e.encode = .group ks

/-! ## Lemmas -/

theorem kidsOf_encode (e : Entry) : ∃ ks, e.encode = .group ks := by
  cases e <;> simp [Entry.encode]

theorem kids_head (e : Entry) (ks : List Tree) (h : e.encode = .group ks) (hn : nameOf e ≠ []) :
    ∃ rest, ks = .data (nameOf e) :: .data (le32 (kindOf e).code) :: rest := by
  cases e <;> simp_all [Entry.encode, blob, nameOf, kindOf] <;> subst h <;> simp

theorem kids_head_nil (e : Entry) (ks : List Tree) (h : e.encode = .group ks) (hn : nameOf e = []) :
    ∃ rest, ks = .data [] :: .data [] :: rest := by
  cases e <;> simp_all [Entry.encode, blob, nameOf] <;> subst h <;> simp

theorem code_inj (a b : Kind) : le32 a.code = le32 b.code ↔ a = b := by
  cases a <;> cases b <;> decide

theorem type_inj (a b : DataType) : le32 a.code = le32 b.code ↔ a = b := by
  cases a <;> cases b <;> decide

theorem cstr_plain (nm : Name) (h : (0 : UInt8) ∉ nm) : cstr nm = nm := by
  induction nm with
  | nil => rfl
  | cons c cs ih =>
    simp only [List.mem_cons, not_or] at h
    have : c ≠ 0 := fun e => h.1 e.symm
    simp only [cstr, List.takeWhile_cons]
    have := ih h.2
    simp_all [cstr]

theorem readString_head (nm : Name) (rest : List Tree) : readString (.data nm :: rest) 0 = some (cstr nm) := rfl

theorem readKind_head (a : Tree) (n : Nat) (rest : List Tree) :
    readData 4 (a :: .data (le32 n) :: rest) 1 = some (some (le32 n)) := by
  simp [readData, getData, le32]

theorem scan_step (k : Kind) (nm : Name) (e : Entry) (es : List Tree) (hn : nameOf e ≠ []) :
    scan k nm (e.encode :: es) =
      if kindOf e = k ∧ cstr (nameOf e) = nm then some (match e.encode with | .group ks => some ks | _ => none)
      else scan k nm es := by
  obtain ⟨ks, hk⟩ := kidsOf_encode e
  obtain ⟨rest, hr⟩ := kids_head e ks hk hn
  rw [hk, hr, scan, readString_head]
  simp only [readKind_head, ne_eq, code_inj]
  by_cases h1 : kindOf e = k <;> by_cases h2 : cstr (nameOf e) = nm <;> simp [h1, h2]

theorem scan_first (k : Kind) (nm : Name) : ∀ (es : List Entry), (∀ e ∈ es, plainName (nameOf e)) →
    scan k nm (es.map Entry.encode) =
      some ((firstOf k nm es).bind fun e => match e.encode with | .group ks => some ks | _ => none)
  | [], _ => rfl
  | e :: es, h => by
    have he := h e (by simp)
    rw [List.map_cons, scan_step k nm e _ he.1, cstr_plain _ he.2, scan_first k nm es (fun x hx => h x (by simp [hx]))]
    by_cases h1 : kindOf e = k <;> by_cases h2 : nameOf e = nm <;> simp [firstOf, h1, h2]

theorem valid_groupKids (g : Name) (es : List Entry) : valid (groupKids g es) = true := by
  by_cases h : g = [] <;> simp [valid, groupKids, blob, h, getData]

theorem scan_groupKids (k : Kind) (nm g : Name) (es : List Entry) :
    scan k nm ((groupKids g es).drop 2) = scan k nm (es.map Entry.encode) := by
  by_cases h : g = []
  · simp [groupKids, blob, h, scan]
  · simp [groupKids, blob, h]

theorem components_plain (nm : Name) (h : (47 : UInt8) ∉ nm) : components nm = [nm] := by
  induction nm with
  | nil => rfl
  | cons c cs ih =>
    simp only [List.mem_cons, not_or] at h
    have hc : c ≠ 47 := fun e => h.1 e.symm
    simp [components, hc, ih h.2]

theorem components_ne (nm : Name) : components nm ≠ [] := by
  cases nm with
  | nil => simp [components]
  | cons c cs =>
    simp only [components]
    split
    · simp
    · split <;> simp

theorem components_path (p rest : Name) (h : (47 : UInt8) ∉ p) :
    components (p ++ 47 :: rest) = p :: components rest := by
  induction p with
  | nil => simp [components]
  | cons c cs ih =>
    simp only [List.mem_cons, not_or] at h
    have hc : c ≠ 47 := fun e => h.1 e.symm
    simp [components, hc, ih h.2]

theorem find_plain (k : Kind) (nm g : Name) (es : List Entry) (h : (47 : UInt8) ∉ nm) :
    find k nm (groupKids g es) = scan k nm (es.map Entry.encode) := by
  rw [find, components_plain nm h, findComponents, valid_groupKids, if_pos rfl, scan_groupKids]

/-! ## C35 -/

/-- **Lookup by name** returns the first entry of the kind with the name, and nothing else. -/
theorem C35_first_of_kind (k : Kind) (nm g : Name) (es : List Entry) (hs : (47 : UInt8) ∉ nm)
    (hn : ∀ e ∈ es, plainName (nameOf e)) :
    (∀ ks, find k nm (groupKids g es) = some (some ks) ↔ ∃ e, firstOf k nm es = some e ∧ Holds ks e) ∧
      (find k nm (groupKids g es) = some none ↔ ∀ e ∈ es, ¬ (kindOf e = k ∧ nameOf e = nm)) := by
  rw [find_plain k nm g es hs, scan_first k nm es hn]
  constructor
  · intro ks
    cases hf : firstOf k nm es with
    | none => simp
    | some e =>
      obtain ⟨ks', hk⟩ := kidsOf_encode e
      simp [hk, Holds]
  · cases hf : firstOf k nm es with
    | none =>
      simp only [firstOf, List.find?_eq_none, Bool.and_eq_true, decide_eq_true_eq] at hf
      simpa using hf
    | some e =>
      obtain ⟨ks', hk⟩ := kidsOf_encode e
      have h1 := List.find?_some hf
      have h2 := List.mem_of_find?_eq_some hf
      simp only [Bool.and_eq_true, decide_eq_true_eq] at h1
      simp only [Option.bind_some, hk, Option.some.injEq, reduceCtorEq, false_iff]
      intro hh
      exact hh e h2 h1

/-- **A path is resolved one component at a time**: `p/rest` is `rest` looked up in the first group named
`p`, and is absent if there is no such group. -/
theorem C35_path (k : Kind) (p rest g : Name) (es : List Entry) (hp : (47 : UInt8) ∉ p)
    (hn : ∀ e ∈ es, plainName (nameOf e)) :
    (∀ es', firstOf .group p es = some (.group p es') →
        find k (p ++ 47 :: rest) (groupKids g es) = find k rest (groupKids p es')) ∧
      (firstOf .group p es = none → find k (p ++ 47 :: rest) (groupKids g es) = some none) := by
  have hc := components_ne rest
  have key : find k (p ++ 47 :: rest) (groupKids g es) =
      match scan .group p (es.map Entry.encode) with
      | some (some sub) => findComponents k (components rest) sub
      | r => r := by
    rw [find, components_path p rest hp]
    cases hr : components rest with
    | nil => exact absurd hr hc
    | cons a as => 
      rw [findComponents, valid_groupKids, if_pos rfl, scan_groupKids]
      · cases scan .group p (es.map Entry.encode) with
        | none => rfl
        | some x => cases x <;> rfl
      · simp
  rw [key, scan_first .group p es hn]
  constructor
  · intro es' h
    rw [h]
    simp [Entry.encode, find, groupKids]
  · intro h
    rw [h]; rfl

/-- What `firstOf .group` finds is a group with that name, so `C35_path` covers all cases. -/
theorem firstOf_group (p : Name) (es : List Entry) (e : Entry) (h : firstOf .group p es = some e) :
    ∃ es', e = .group p es' := by
  have h1 := List.find?_some h
  simp only [Bool.and_eq_true, decide_eq_true_eq] at h1
  cases e <;> simp_all [kindOf, nameOf]

theorem names_go (k : Kind) : ∀ (es : List Entry), (∀ e ∈ es, plainName (nameOf e)) →
    names.go k (es.map Entry.encode) = some ((es.filter fun e => kindOf e = k).map nameOf)
  | [], _ => rfl
  | e :: es, h => by
    have he := h e (by simp)
    obtain ⟨ks, hk⟩ := kidsOf_encode e
    obtain ⟨rest, hr⟩ := kids_head e ks hk he.1
    rw [List.map_cons, hk, hr, names.go, readString_head]
    simp only [readKind_head, ne_eq, code_inj, names_go k es (fun x hx => h x (by simp [hx])), cstr_plain _ he.2]
    by_cases h1 : kindOf e = k <;> simp [h1]

/-- **Listing** gives the names of the entries of the kind, in order, and these are exactly the names for
which lookup succeeds (an attribute or dataset whose own name contains `/` is listed but cannot be asked
for by that name, see `C35_slash_in_name`). -/
theorem C35_listing (k : Kind) (g : Name) (es : List Entry) (hn : ∀ e ∈ es, plainName (nameOf e)) :
    names k (groupKids g es) = some ((es.filter fun e => kindOf e = k).map nameOf) ∧
      ∀ nm l, (47 : UInt8) ∉ nm → names k (groupKids g es) = some l →
        (nm ∈ l ↔ ∃ ks, find k nm (groupKids g es) = some (some ks)) := by
  have hl : names k (groupKids g es) = some ((es.filter fun e => kindOf e = k).map nameOf) := by
    rw [names, valid_groupKids, if_pos rfl]
    by_cases h : g = []
    · simpa [groupKids, blob, h, names.go] using names_go k es hn
    · simpa [groupKids, blob, h] using names_go k es hn
  refine ⟨hl, ?_⟩
  intro nm l hs h
  rw [hl, Option.some.injEq] at h
  subst h
  constructor
  · intro hm
    simp only [List.mem_map, List.mem_filter, decide_eq_true_eq] at hm
    obtain ⟨e, ⟨he, hk⟩, hnm⟩ := hm
    cases hf : firstOf k nm es with
    | none =>
      simp only [firstOf, List.find?_eq_none, Bool.and_eq_true, decide_eq_true_eq] at hf
      exact absurd ⟨hk, hnm⟩ (hf e he)
    | some e' =>
      obtain ⟨ks', hk'⟩ := kidsOf_encode e'
      exact ⟨ks', ((C35_first_of_kind k nm g es hs hn).1 ks').2 ⟨e', hf, hk'⟩⟩
  · rintro ⟨ks, h⟩
    obtain ⟨e, hf, _⟩ := ((C35_first_of_kind k nm g es hs hn).1 ks).1 h
    have h1 := List.find?_some hf
    have h2 := List.mem_of_find?_eq_some hf
    simp only [Bool.and_eq_true, decide_eq_true_eq] at h1
    simp only [List.mem_map, List.mem_filter, decide_eq_true_eq]
    exact ⟨e, ⟨h2, h1.1⟩, h1.2⟩

/-- A group: attribute "a", group "g" with an attribute "b" in it, a dataset "a", and a second attribute
"a". -/
def sampleEntries : List Entry :=
  [.attribute [97] .int8 [1], .group [103] [.attribute [98] .int8 [2]], .dataset [97] .int8 [[3], [4, 5]],
   .attribute [97] .int8 [6]]

example : ∀ e ∈ sampleEntries, plainName (nameOf e) := by
  simp [sampleEntries, nameOf, plainName]
example : firstOf .attribute [97] sampleEntries = some (.attribute [97] .int8 [1]) := by
  simp [sampleEntries, firstOf, kindOf, nameOf]
example : firstOf .dataset [97] sampleEntries = some (.dataset [97] .int8 [[3], [4, 5]]) := by
  simp [sampleEntries, firstOf, kindOf, nameOf]
example : firstOf .group [103] sampleEntries = some (.group [103] [.attribute [98] .int8 [2]]) := by
  simp [sampleEntries, firstOf, kindOf, nameOf]
example : firstOf .group [97] sampleEntries = none := by
  simp [sampleEntries, firstOf, kindOf, nameOf]

/-- **Disagreement**: an entry with an empty name makes every entry after it unreachable by name, although
listing still shows them. -/
theorem C35_empty_name_hides (k : Kind) (nm g : Name) (pre post : List Entry) (e : Entry)
    (hs : (47 : UInt8) ∉ nm) (hn : ∀ x ∈ pre, plainName (nameOf x)) (hq : ∀ x ∈ post, plainName (nameOf x))
    (he : nameOf e = []) :
    find k nm (groupKids g (pre ++ e :: post)) = find k nm (groupKids g pre) ∧
      names k (groupKids g (pre ++ e :: post)) = names k (groupKids g (pre ++ post)) := by
  obtain ⟨ks, hk⟩ := kidsOf_encode e
  obtain ⟨rest, hr⟩ := kids_head_nil e ks hk he
  constructor
  · rw [find_plain k nm g _ hs, find_plain k nm g _ hs]
    induction pre with
    | nil =>
      rw [List.nil_append, List.map_cons, hk, hr, scan, readString_head]
      rfl
    | cons x xs ih =>
      rw [List.cons_append, List.map_cons, List.map_cons, scan_step k nm x _ (hn x (by simp)).1,
        scan_step k nm x _ (hn x (by simp)).1, ih (fun y hy => hn y (by simp [hy]))]
  · have key : names.go k ((pre ++ e :: post).map Entry.encode) = names.go k ((pre ++ post).map Entry.encode) := by
      induction pre with
      | nil =>
        rw [List.nil_append, List.map_cons, hk, hr, names.go, readString_head]
        rfl
      | cons x xs ih =>
        obtain ⟨ks', hk'⟩ := kidsOf_encode x
        obtain ⟨rest', hr'⟩ := kids_head x ks' hk' (hn x (by simp)).1
        rw [List.cons_append, List.cons_append, List.map_cons, List.map_cons, hk', hr', names.go, names.go,
          readString_head]
        simp only [readKind_head, ih (fun y hy => hn y (by simp [hy]))]
    rw [names, names, valid_groupKids, valid_groupKids, if_pos rfl, if_pos rfl]
    by_cases h : g = []
    · simpa [groupKids, blob, h, names.go] using key
    · simpa [groupKids, blob, h] using key

/-- The consequence: a listed attribute that lookup does not find. -/
theorem C35_listed_but_not_found : ∃ (es : List Entry) (nm : Name) (l : List Name),
    names .attribute (rootKids es) = some l ∧ nm ∈ l ∧ find .attribute nm (rootKids es) = some none := by
  refine ⟨[.attribute [] .int8 [1], .attribute [97] .int8 [2]], [97], [[97]], ?_, by simp, ?_⟩ <;>
    simp [rootKids, rootName, names, names.go, find, findComponents, components, valid, getData, blob, Entry.encode,
      readString, readData, scan, le32, Kind.code, cstr]

/-- **Disagreement**: an attribute whose name contains `/` (the attribute writer does not refuse it) is
listed under that name but looking the name up does not find it. -/
theorem C35_slash_in_name : ∃ (es : List Entry) (nm : Name) (l : List Name),
    (∀ e ∈ es, plainName (nameOf e)) ∧
    names .attribute (rootKids es) = some l ∧ nm ∈ l ∧ find .attribute nm (rootKids es) = some none := by
  refine ⟨[.attribute [97, 47, 98] .int8 [1]], [97, 47, 98], [[97, 47, 98]], by simp [nameOf, plainName], ?_,
    by simp, ?_⟩ <;>
    simp [rootKids, rootName, names, names.go, find, findComponents, components, valid, getData, blob, Entry.encode,
      readString, readData, scan, le32, Kind.code, cstr]

/-! ## C36 -/

/-- **Attributes round-trip.** The first attribute with the name, asked for with its own type, gives the
value written (a string up to its first NUL); with another type it is absent; its type is reported. -/
theorem C36_attribute_round_trip (g nm : Name) (t : DataType) (v : List UInt8) (es : List Entry)
    (hs : (47 : UInt8) ∉ nm) (hn : ∀ e ∈ es, plainName (nameOf e))
    (hf : firstOf .attribute nm es = some (.attribute nm t v)) (hv : t ≠ .string → v.length = t.bytes) :
    (∃ a, findTyped .attribute t nm (groupKids g es) = some (some a) ∧
        attributeValue t (some a) = some (some (if t = .string then upToNul v else v))) ∧
      (∀ t', t' ≠ t → findTyped .attribute t' nm (groupKids g es) = some none) ∧
      typeOf .attribute nm (groupKids g es) = some (some (le32 t.code)) := by
  have hp : plainName nm := hn _ (List.mem_of_find?_eq_some hf)
  obtain ⟨ks, hk⟩ := kidsOf_encode (.attribute nm t v)
  have hfind := ((C35_first_of_kind .attribute nm g es hs hn).1 ks).2 ⟨_, hf, hk⟩
  have hks : ks = .data nm :: .data (le32 Kind.attribute.code) :: .data (le32 t.code) :: blob v := by
    simpa [Entry.encode, blob, hp.1] using hk.symm
  have hty : readDataType ks 2 = some (some (le32 t.code)) := by
    rw [hks]; simp [readDataType, readData, getData, le32]
  refine ⟨⟨ks, ?_, ?_⟩, ?_, ?_⟩
  · simp [findTyped, hfind, hty]
  · rw [attributeValue, hks]
    by_cases h : t = .string
    · by_cases hv0 : v = []
      · simp [h, readString, getData, blob, hv0, cstr, upToNul]
      · simp [h, readString, getData, blob, hv0, cstr, upToNul]
    · have := hv h
      have h0 : v ≠ [] := by
        intro e
        rw [e] at this
        cases t <;> simp [DataType.bytes] at this h
      simp [h, readData, getData, blob, h0, this]
  · intro t' ht
    simp only [findTyped, hfind, hty]
    rw [if_neg]
    intro e
    rw [Option.some.injEq, type_inj] at e
    exact ht e.symm
  · simp only [typeOf, hfind, hty]
    rw [if_pos]
    rw [hks]; simp

example : firstOf .attribute [115] [.dataset [115] .int8 [], .attribute [115] .string [104, 105, 0, 33]] =
    some (.attribute [115] .string [104, 105, 0, 33]) ∧ upToNul [104, 105, 0, 33] = [104, 105] := by
  constructor
  · simp [firstOf, kindOf, nameOf]
  · decide

/-- A string without NUL comes back whole. -/
theorem C36_string_without_nul (s : List UInt8) (h : (0 : UInt8) ∉ s) : upToNul s = s := cstr_plain s h

/-- **A value of the wrong size**, in a file written by something else: the attribute is found, and its value is the
default of the type, zero. -/
theorem C36_wrong_size (g nm : Name) (t : DataType) (v : List UInt8) (es : List Entry) (hs : (47 : UInt8) ∉ nm)
    (hn : ∀ e ∈ es, plainName (nameOf e)) (hf : firstOf .attribute nm es = some (.attribute nm t v)) (ht : t ≠ .string)
    (hv : v.length ≠ t.bytes) :
    (∃ a, findTyped .attribute t nm (groupKids g es) = some (some a) ∧ attributeValue t (some a) = some none) ∧
      ∀ t', t' ≠ t → findTyped .attribute t' nm (groupKids g es) = some none := by
  have hp : plainName nm := hn _ (List.mem_of_find?_eq_some hf)
  obtain ⟨ks, hk⟩ := kidsOf_encode (.attribute nm t v)
  have hfind := ((C35_first_of_kind .attribute nm g es hs hn).1 ks).2 ⟨_, hf, hk⟩
  have hks : ks = .data nm :: .data (le32 Kind.attribute.code) :: .data (le32 t.code) :: blob v := by
    simpa [Entry.encode, blob, hp.1] using hk.symm
  have hty : readDataType ks 2 = some (some (le32 t.code)) := by
    rw [hks]; simp [readDataType, readData, getData, le32]
  refine ⟨⟨ks, by simp [findTyped, hfind, hty], ?_⟩, fun t' h => ?_⟩
  · rw [attributeValue, hks]
    by_cases h0 : v = []
    · have : ¬ 0 = t.bytes := by cases t <;> simp [DataType.bytes] at ht ⊢
      simp [ht, readData, getData, blob, h0, this]
    · simp [ht, readData, getData, blob, h0, hv]
  · simp only [findTyped, hfind, hty]
    rw [if_neg]
    intro e
    rw [Option.some.injEq, type_inj] at e
    exact h e.symm

/-- **An absent attribute** is reported as absent for every type, by lookup and by the type query... -/
theorem C36_absent (g nm : Name) (t : DataType) (es : List Entry) (hs : (47 : UInt8) ∉ nm)
    (hn : ∀ e ∈ es, plainName (nameOf e)) (hf : ∀ e ∈ es, ¬ (kindOf e = .attribute ∧ nameOf e = nm)) :
    findTyped .attribute t nm (groupKids g es) = some none ∧ typeOf .attribute nm (groupKids g es) = some none := by
  have := (C35_first_of_kind .attribute nm g es hs hn).2.2 hf
  simp [findTyped, typeOf, this]

/-- ...but **disagreement** with the documentation of `value()`, which promises zero for an attribute that is
not valid: the null group is dereferenced. -/
theorem C36_value_of_absent_crashes (g nm : Name) (t : DataType) (es : List Entry) (hs : (47 : UInt8) ∉ nm)
    (hn : ∀ e ∈ es, plainName (nameOf e)) (hf : ∀ e ∈ es, ¬ (kindOf e = .attribute ∧ nameOf e = nm)) :
    ∃ a, findTyped .attribute t nm (groupKids g es) = some a ∧ attributeValue t a = none :=
  ⟨none, (C36_absent g nm t es hs hn hf).1, rfl⟩

example : ∀ e ∈ sampleEntries, ¬ (kindOf e = .attribute ∧ nameOf e = [98]) := by
  simp [sampleEntries, kindOf, nameOf]

theorem flatMap_blob (els : List (List UInt8)) (h : ∀ x ∈ els, x ≠ []) : els.flatMap blob = els.map Tree.data := by
  induction els with
  | nil => rfl
  | cons x xs ih =>
    rw [List.flatMap_cons, ih (fun y hy => h y (by simp [hy]))]
    simp [blob, h x (by simp)]

theorem dataset_kids (nm : Name) (t : DataType) (els : List (List UInt8)) (compressed : Bool) (ks : List Tree)
    (hp : nm ≠ [])
    (hk : (if compressed then Entry.compressed nm t els else Entry.dataset nm t els).encode = .group ks) :
    ∃ c, ks = .data nm :: .data (le32 c) :: .data (le32 t.code) :: els.flatMap blob := by
  cases compressed
  · exact ⟨Kind.dataset.code, by simpa [Entry.encode, blob, hp] using hk.symm⟩
  · exact ⟨Kind.compressed.code, by simpa [Entry.encode, blob, hp] using hk.symm⟩

/-- **Datasets round-trip**, compressed or not: with no empty element, as many elements as were added, the
same bytes at each index, and nothing past the end; asked for with another type the dataset is absent. -/
theorem C36_dataset_round_trip (compressed : Bool) (g nm : Name) (t : DataType) (els : List (List UInt8))
    (es : List Entry) (hs : (47 : UInt8) ∉ nm) (hn : ∀ e ∈ es, plainName (nameOf e)) (he : ∀ x ∈ els, x ≠ [])
    (hf : firstOf (if compressed then .compressed else .dataset) nm es =
      some (if compressed then .compressed nm t els else .dataset nm t els)) :
    (∃ d, findTyped (if compressed then .compressed else .dataset) t nm (groupKids g es) = some (some d) ∧
        numElements d = els.length ∧ ∀ i : Nat, element d i = els[i]?) ∧
      ∀ t', t' ≠ t → findTyped (if compressed then .compressed else .dataset) t' nm (groupKids g es) = some none := by
  have hp : plainName nm := by
    have := hn _ (List.mem_of_find?_eq_some hf)
    cases compressed <;> simpa [nameOf] using this
  obtain ⟨ks, hk⟩ := kidsOf_encode (if compressed then Entry.compressed nm t els else Entry.dataset nm t els)
  have hfind := ((C35_first_of_kind (if compressed then .compressed else .dataset) nm g es hs hn).1 ks).2
    ⟨_, hf, hk⟩
  obtain ⟨c, hks⟩ := dataset_kids nm t els compressed ks hp.1 hk
  have hty : readDataType ks 2 = some (some (le32 t.code)) := by
    rw [hks]; simp [readDataType, readData, getData, le32]
  refine ⟨⟨ks, ?_, ?_, ?_⟩, ?_⟩
  · simp [findTyped, hfind, hty]
  · rw [hks, flatMap_blob els he]; simp [numElements]
  · intro i
    rw [hks, flatMap_blob els he]
    simp only [element, getData, List.getElem?_cons_succ, List.getElem?_map]
    cases els[i]? <;> rfl
  · intro t' ht
    simp only [findTyped, hfind, hty]
    rw [if_neg]
    intro e
    rw [Option.some.injEq, type_inj] at e
    exact ht e.symm

example : ∃ els : List (List UInt8), els.length = 2 ∧ (∀ x ∈ els, x ≠ []) ∧
    firstOf .dataset [97] sampleEntries = some (.dataset [97] .int8 els) := by
  refine ⟨[[3], [4, 5]], rfl, by simp, by simp [sampleEntries, firstOf, kindOf, nameOf]⟩

/-- **Disagreement**: an element of length zero takes two places, so the elements after it are found one
place later than they were added and one element too many is counted. -/
theorem C36_empty_element_shifts (nm : Name) (t : DataType) (pre post : List (List UInt8)) (ks : List Tree)
    (hp : nm ≠ []) (h1 : ∀ x ∈ pre, x ≠ []) (h2 : ∀ x ∈ post, x ≠ [])
    (hk : Holds ks (.dataset nm t (pre ++ [] :: post))) :
    numElements ks = (pre ++ [] :: post).length + 1 ∧
      ∀ i : Nat, element ks (pre.length + 2 + i) = post[i]? := by
  have hks : ks = .data nm :: .data (le32 Kind.dataset.code) :: .data (le32 t.code) ::
      (pre.map Tree.data ++ .data [] :: .data [] :: post.map Tree.data) := by
    have : (pre ++ [] :: post).flatMap blob = pre.map Tree.data ++ .data [] :: .data [] :: post.map Tree.data := by
      rw [List.flatMap_append, List.flatMap_cons, flatMap_blob pre h1, flatMap_blob post h2]
      simp [blob]
    rw [← this]
    simpa [Holds, Entry.encode, blob, hp] using hk.symm
  constructor
  · rw [hks]; simp [numElements]; omega
  · intro i
    rw [hks]
    simp only [element, getData, List.getElem?_cons_succ]
    rw [List.getElem?_append_right (by simp; omega)]
    have : pre.length + 2 + i - (pre.map Tree.data).length = i + 1 + 1 := by simp; omega
    rw [this]
    simp only [List.getElem?_cons_succ, List.getElem?_map]
    cases post[i]? <;> rfl

/-! ## Down to the bytes of the file -/

theorem noEmpty_append : ∀ a b : List Tree, noEmptyData (a ++ b) = (noEmptyData a && noEmptyData b)
  | [], b => by simp [noEmptyData]
  | .data bs :: ts, b => by simp [noEmptyData, noEmpty_append ts b, Bool.and_assoc]
  | .group ks :: ts, b => by simp [noEmptyData, noEmpty_append ts b, Bool.and_assoc]

mutual
/-- No empty name, string value or element anywhere. -/
def nothingEmpty : Entry → Bool
  | .group nm es => !nm.isEmpty && nothingEmptyAll es
  | .attribute nm _ v => !nm.isEmpty && !v.isEmpty
  | .dataset nm _ els => !nm.isEmpty && els.all (!·.isEmpty)
  | .compressed nm _ els => !nm.isEmpty && els.all (!·.isEmpty)
def nothingEmptyAll : List Entry → Bool
  | [] => true
  | e :: es => nothingEmpty e && nothingEmptyAll es
end

theorem noEmpty_blob (bs : List UInt8) (h : (!bs.isEmpty) = true) : noEmptyData (blob bs) = true := by
  have : bs ≠ [] := by intro e; simp [e] at h
  simp [blob, this, noEmptyData]

theorem noEmpty_blobs : ∀ (els : List (List UInt8)), els.all (!·.isEmpty) = true →
    noEmptyData (els.flatMap blob) = true
  | [], _ => by simp [noEmptyData]
  | x :: xs, h => by
    simp only [List.all_cons, Bool.and_eq_true] at h
    rw [List.flatMap_cons, noEmpty_append, noEmpty_blob x h.1, noEmpty_blobs xs h.2]; rfl

mutual
theorem noEmpty_encode : ∀ e : Entry, nothingEmpty e = true → noEmptyData [e.encode] = true
  | .group nm es, h => by
    simp only [nothingEmpty, Bool.and_eq_true] at h
    simp only [Entry.encode, noEmptyData, noEmpty_append, noEmpty_blob nm h.1, noEmpty_encodes es h.2]
    simp [le32]
  | .attribute nm t v, h => by
    simp only [nothingEmpty, Bool.and_eq_true] at h
    simp only [Entry.encode, noEmptyData, noEmpty_append, noEmpty_blob nm h.1, noEmpty_blob v h.2]
    simp [le32]
  | .dataset nm t els, h => by
    simp only [nothingEmpty, Bool.and_eq_true] at h
    simp only [Entry.encode, noEmptyData, noEmpty_append, noEmpty_blob nm h.1, noEmpty_blobs els h.2]
    simp [le32]
  | .compressed nm t els, h => by
    simp only [nothingEmpty, Bool.and_eq_true] at h
    simp only [Entry.encode, noEmptyData, noEmpty_append, noEmpty_blob nm h.1, noEmpty_blobs els h.2]
    simp [le32]
theorem noEmpty_encodes : ∀ es : List Entry, nothingEmptyAll es = true → noEmptyData (es.map Entry.encode) = true
  | [], _ => by simp [noEmptyData]
  | e :: es, h => by
    simp only [nothingEmptyAll, Bool.and_eq_true] at h
    have := noEmpty_append [e.encode] (es.map Entry.encode)
    rw [List.map_cons, ← List.singleton_append, this, noEmpty_encode e h.1, noEmpty_encodes es h.2]; rfl
end

/-- **Through the file**: entries written to an archive that is closed, reopened and walked give back, byte
for byte, the children on which the lookups above work. -/
theorem C36_through_the_file (es : List Entry) (h : nothingEmptyAll es = true)
    (hL : (Writer.init.run (writeTree (rootKids es))).file.length < 2 ^ 63) :
    ∃ root, openArchive (Writer.init.run (writeTree (rootKids es))).file = .archive true root ∧
      explore (Writer.init.run (writeTree (rootKids es))).file false (levels (rootKids es)) root =
        some (.group (groupKids rootName es)) := by
  have hne : noEmptyData (rootKids es) = true := by
    have := noEmpty_encode (.group rootName es) (by simp [nothingEmpty, rootName, h])
    simpa [Entry.encode, rootKids, noEmptyData] using this
  obtain ⟨root, h1, h2, _⟩ := C30_tree_round_trip (rootKids es) hne hL
  exact ⟨root, h1, h2 false⟩

example : nothingEmptyAll sampleEntries = true := by
  simp [sampleEntries, nothingEmptyAll, nothingEmpty]

end F3D.Props
