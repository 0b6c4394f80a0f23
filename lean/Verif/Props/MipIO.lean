import Verif.Model.MipIO
import Verif.Proofs.FilesRead
import Verif.Props.FieldIO

/-!
# C75: MIP fields in files
-/

namespace F3D.Props
open Og Ogawa FieldIO MipIO
open Files (find_group decimal_no)
open BlockThreads (WState Exclusive)
open MappingIO (decimal decimal_inj)

variable {α : Type}

/-! ## Fields that can be written -/

/-- A dense field that a program can build, with windows that 32 bits can hold. -/
def DenseStorable (dflt : α) (f : Dense α) : Prop :=
  (∃ ext dw f0 ops, Dense.setSize dflt ext dw = .ok f0 ∧ denseRun dflt f0 ops = some f) ∧
  (V32 f.extents.min ∧ V32 f.extents.max) ∧ V32 f.dw.min ∧ V32 f.dw.max

/-- A sparse field that a program can build, and the entries are those that its writing threads made; they did not
interleave in the update of the write counter, or all blocks are allocated (C38, C40). -/
def SparseWritten [DecidableEq α] (e : Elem α) (z : Zlib) (zero : α) (f : Sparse α) (es : List Entry) : Prop :=
  SparseReachable zero f ∧ Storable f ∧ ∃ threads sched oob, 0 < threads ∧
    writeSparse e z threads sched oob f = .ok es ∧
    (Exclusive (flags f) oob (WState.init threads (flags f)) sched ∨ ∀ b ∈ f.blocks, b.isAllocated = true)

def GoodLevel [DecidableEq α] (e : Elem α) (z : Zlib) (zero dflt : α) : Level α → Prop
  | .dense f => DenseStorable dflt f
  | .sparse f es => SparseWritten e z zero f es

/-- Every level has no more voxels than the one before in any direction, and fewer in some. -/
def Shrinks : V3i → List V3i → Prop
  | _, [] => True
  | a, b :: l => (b.x ≤ a.x ∧ b.y ≤ a.y ∧ b.z ≤ a.z) ∧ b ≠ a ∧ Shrinks b l

/-- A MIP field that can be written: it has levels, all of the class, which shrink (`setup` checks this). -/
structure GoodMip [DecidableEq α] (e : Elem α) (z : Zlib) (zero dflt : α) (cls : Name) (levels : List (Level α)) : Prop where
  good : ∀ l ∈ levels, GoodLevel e z zero dflt l ∧ l.single.cls = cls
  few : levels.length < 2 ^ 31
  shrinks : ∃ l ls, levels = l :: ls ∧ Shrinks l.single.extents.size (ls.map fun x => x.single.extents.size)

/-! ## Paths -/

theorem components_append (p rest : Name) : components (p ++ 47 :: rest) = components p ++ components rest := by
  induction p with
  | nil => simp [components]
  | cons c p ih =>
    rw [List.cons_append, components, components]
    by_cases h : c = 47
    · rw [if_pos h, if_pos h, ih]; rfl
    · rw [if_neg h, if_neg h, ih]
      cases hc : components p with
      | nil => exact absurd hc (components_ne p)
      | cons n ns => rfl

theorem findComponents_append (k : Kind) : ∀ (a b : List Name) (kids sub : List Tree), b ≠ [] →
    findComponents .group a kids = some (some sub) → findComponents k (a ++ b) kids = findComponents k b sub
  | [], _, _, _, _, h => by simp [findComponents] at h
  | [nm], b, kids, sub, hb, h => by
    rw [findComponents] at h
    obtain ⟨x, xs, rfl⟩ := List.exists_cons_of_ne_nil hb
    rw [List.singleton_append, findComponents]
    · split at h
      · rename_i hv
        rw [if_pos hv, h]
      · simp at h
    · simp
  | nm :: nm' :: a, b, kids, sub, hb, h => by
    rw [findComponents] at h
    · rw [List.cons_append, findComponents]
      · split at h
        · rename_i hv
          rw [if_pos hv]
          cases hs : scan .group nm (kids.drop 2) with
          | none => rw [hs] at h; simp at h
          | some r =>
            cases r with
            | none => rw [hs] at h; simp at h
            | some s =>
              rw [hs] at h
              exact findComponents_append k (nm' :: a) b s sub hb h
        · simp at h
      · simp
    · simp

/-- A path below a group that was found. -/
theorem find_below (k : Kind) (p rest : Name) (root sub : List Tree) (h : find .group p root = some (some sub)) :
    find k (p ++ 47 :: rest) root = find k rest sub := by
  rw [find, components_append]
  exact findComponents_append k _ _ _ _ (components_ne rest) h

/-! ## Names -/

/-- The names that the format of MIP fields uses. -/
def mipNames : List Name :=
  [kVersion, kExtMin, kExtMax, kDwMin, kDwMax, kComponents, kBits, kBaseType, kDummy, kMipGroup, kLevels]

theorem mipNames_ok : ∀ nm ∈ mipNames, (47 : UInt8) ∉ nm ∧ plainName nm := by
  unfold plainName; decide +kernel

theorem levelName_ok (i : Nat) : (47 : UInt8) ∉ levelName i ∧ plainName (levelName i) := by
  have h1 : ∀ b : UInt8, b ∈ levelName i → b ∈ kLevel ∨ b = 46 ∨ b ∈ decimal i := by
    intro b hb
    simpa [levelName] using hb
  refine ⟨fun h => ?_, by simp [levelName, kLevel, ascii], fun h => ?_⟩
  · rcases h1 _ h with h | h | h
    · revert h; decide
    · revert h; decide
    · exact decimal_no 47 i (by decide) h
  · rcases h1 _ h with h | h | h
    · revert h; decide
    · revert h; decide
    · exact decimal_no 0 i (by decide) h

theorem levelName_inj {i j : Nat} (h : levelName i = levelName j) : i = j := by
  have := List.append_cancel_left h
  simp only [List.cons.injEq, true_and] at this
  exact decimal_inj i j this

theorem level_names : ∀ (ls : List (List Entry)) (i : Nat), ∀ x ∈ levelEntries i ls, plainName (nameOf x)
  | [], _, x, h => by simp [levelEntries] at h
  | es :: ls, i, x, h => by
    rw [levelEntries, List.mem_cons] at h
    rcases h with rfl | h
    · exact (levelName_ok i).2
    · exact level_names ls (i + 1) x h

theorem level_first : ∀ (ls : List (List Entry)) (i j : Nat) (es : List Entry), ls[j]? = some es →
    firstOf .group (levelName (i + j)) (levelEntries i ls) = some (.group (levelName (i + j)) es)
  | [], _, _, _, h => by simp at h
  | l :: ls, i, 0, es, h => by
    simp only [List.getElem?_cons_zero, Option.some.injEq] at h
    subst h
    simp [levelEntries, firstOf, kindOf, nameOf]
  | l :: ls, i, j + 1, es, h => by
    rw [List.getElem?_cons_succ] at h
    have ih := level_first ls (i + 1) j es h
    have hne : ¬ levelName i = levelName (i + (j + 1)) := fun e => by have := levelName_inj e; omega
    have e : i + 1 + j = i + (j + 1) := by omega
    rw [e] at ih
    rw [levelEntries, ← ih]
    simp [firstOf, kindOf, nameOf, hne]

/-- The group of the levels. -/
def mipGroup (ls : List (List Entry)) : List Entry := .attribute kLevels .uint32 (le32 ls.length) :: levelEntries 0 ls

theorem mipGroup_plain (ls : List (List Entry)) : ∀ x ∈ mipGroup ls, plainName (nameOf x) := by
  intro x h
  rw [mipGroup, List.mem_cons] at h
  rcases h with rfl | h
  · exact (mipNames_ok kLevels (by decide)).2
  · exact level_names ls 0 x h

theorem mipGroup_level (ls : List (List Entry)) (i : Nat) (es : List Entry) (h : ls[i]? = some es) :
    find .group (levelName i) (groupKids kMipGroup (mipGroup ls)) = some (some (groupKids (levelName i) es)) := by
  refine find_group kMipGroup (levelName i) _ es (levelName_ok i).1 (mipGroup_plain ls) ?_
  have := level_first ls 0 i es h
  rw [Nat.zero_add] at this
  rw [← this, mipGroup]
  simp [firstOf, kindOf, nameOf]

/-! ## Proxies -/

theorem windows_first (v : Entry) (extents dw : Box3i) (tail : List Entry) (hv : nameOf v = kVersion) (nm : Name)
    (h : nm = kExtMin ∨ nm = kExtMax ∨ nm = kDwMin ∨ nm = kDwMax) :
    firstOf .attribute nm ([v] ++ windowEntries extents dw ++ tail) = some (.attribute nm .veci32
      (if nm = kExtMin then encV3i extents.min else if nm = kExtMax then encV3i extents.max
        else if nm = kDwMin then encV3i dw.min else encV3i dw.max)) := by
  rw [List.append_assoc, firstOf_skip]
  · rcases h with rfl | rfl | rfl | rfl <;> rfl
  · intro x hx
    rw [List.mem_singleton] at hx
    subst hx
    rw [hv]
    rcases h with rfl | rfl | rfl | rfl <;> decide

theorem windows_read (g : Name) (v : Entry) (extents dw : Box3i) (tail : List Entry) (hv : nameOf v = kVersion)
    (hn : ∀ x ∈ [v] ++ windowEntries extents dw ++ tail, plainName (nameOf x))
    (hx : V32 extents.min ∧ V32 extents.max) (hd : V32 dw.min ∧ V32 dw.max) :
    (attr .veci32 kExtMin (groupKids g ([v] ++ windowEntries extents dw ++ tail))).bind (fun a =>
      (attr .veci32 kExtMax (groupKids g ([v] ++ windowEntries extents dw ++ tail))).bind fun b =>
      (attr .veci32 kDwMin (groupKids g ([v] ++ windowEntries extents dw ++ tail))).bind fun c =>
      (attr .veci32 kDwMax (groupKids g ([v] ++ windowEntries extents dw ++ tail))).bind fun d =>
      Res.ok ((⟨decV3i a, decV3i b⟩ : Box3i), (⟨decV3i c, decV3i d⟩ : Box3i))) = .ok (extents, dw) := by
  have s := fun nm hm => (formatNames_ok nm hm).1
  rw [attr_get g kExtMin _ _ _ (s _ (by decide)) hn (windows_first v extents dw tail hv _ (.inl rfl)) (by decide) rfl,
    attr_get g kExtMax _ _ _ (s _ (by decide)) hn (windows_first v extents dw tail hv _ (.inr (.inl rfl))) (by decide) rfl,
    attr_get g kDwMin _ _ _ (s _ (by decide)) hn (windows_first v extents dw tail hv _ (.inr (.inr (.inl rfl)))) (by decide) rfl,
    attr_get g kDwMax _ _ _ (s _ (by decide)) hn (windows_first v extents dw tail hv _ (.inr (.inr (.inr rfl)))) (by decide) rfl]
  show Res.ok ((⟨decV3i (encV3i extents.min), decV3i (encV3i extents.max)⟩ : Box3i),
    (⟨decV3i (encV3i dw.min), decV3i (encV3i dw.max)⟩ : Box3i)) = _
  rw [decV3i_encV3i _ hx.1, decV3i_encV3i _ hx.2, decV3i_encV3i _ hd.1, decV3i_encV3i _ hd.2]

theorem written_sparse_shape (e : Elem α) (z : Zlib) (f : Sparse α) (threads : Nat) (sched : List Nat) (oob : Bool)
    (es : List Entry) (h : writeSparse e z threads sched oob f = .ok es) :
    (∀ x ∈ es, nameOf x ∈ formatNames) ∧
    ∃ tail, es = [.attribute kVersion .int32 (encInt 1)] ++ windowEntries f.extents f.dw ++ tail := by
  have key : ∀ log es, sparseEntries e z f log = some es → ∃ tail,
      es = [.attribute kVersion .int32 (encInt 1)] ++ windowEntries f.extents f.dw ++ tail := by
    intro log es h
    unfold sparseEntries at h
    dsimp only at h
    split at h
    · simp at h
    · simp only [Option.some.injEq] at h
      exact ⟨_, h.symm⟩
  have hk : ∃ log, sparseEntries e z f log = some es := by
    unfold writeSparse at h
    simp only at h
    split at h
    · split at h
      · split at h
        · simp at h
        · rename_i es' h'
          simp only [Res.ok.injEq] at h
          subst h
          exact ⟨_, h'⟩
      · simp at h
    · split at h
      · simp at h
      · rename_i es' h'
        simp only [Res.ok.injEq] at h
        subst h
        exact ⟨_, h'⟩
  obtain ⟨log, hl⟩ := hk
  exact ⟨plain_sparse e z f log es hl, key log es hl⟩

theorem level_shape [DecidableEq α] (e : Elem α) (z : Zlib) (zero dflt : α) (l : Level α) (h : GoodLevel e z zero dflt l) :
    (∀ x ∈ l.entries e, nameOf x ∈ formatNames) ∧
    (∃ tail, l.entries e = [.attribute kVersion .int32 (encInt 1)] ++ windowEntries l.single.extents l.single.dw ++ tail) ∧
    (V32 l.single.extents.min ∧ V32 l.single.extents.max) ∧ V32 l.single.dw.min ∧ V32 l.single.dw.max := by
  cases l with
  | dense f => exact ⟨dense_names e f, ⟨_, rfl⟩, h.2.1, h.2.2⟩
  | sparse f es =>
    obtain ⟨-, hst, t, s, o, -, hw, -⟩ := h
    obtain ⟨h1, h2⟩ := written_sparse_shape e z f t s o es hw
    exact ⟨h1, h2, hst.ext, hst.dw⟩

theorem proxy_read [DecidableEq α] (e : Elem α) (z : Zlib) (zero dflt : α) (ls : List (Level α)) (i : Nat) (l : Level α)
    (hi : ls[i]? = some l) (h : GoodLevel e z zero dflt l) :
    readProxy (groupKids kMipGroup (mipGroup (ls.map (Level.entries e)))) i = .ok (l.single.extents, l.single.dw) := by
  obtain ⟨h1, ⟨tail, h2⟩, h3, h4⟩ := level_shape e z zero dflt l h
  have hg := mipGroup_level (ls.map (Level.entries e)) i (l.entries e) (by rw [List.getElem?_map, hi]; rfl)
  rw [readProxy, hg]
  simp only [Option.getD_some]
  rw [h2]
  refine windows_read (levelName i) _ _ _ tail rfl ?_ h3 h4
  intro x hx
  rw [← h2] at hx
  exact (formatNames_ok _ (h1 x hx)).2

theorem proxies_read [DecidableEq α] (e : Elem α) (z : Zlib) (zero dflt : α) (ls : List (Level α))
    (h : ∀ l ∈ ls, GoodLevel e z zero dflt l) : ∀ n i, i + n = ls.length →
    readProxies (groupKids kMipGroup (mipGroup (ls.map (Level.entries e)))) n i =
      .ok ((ls.drop i).map fun l => (l.single.extents, l.single.dw))
  | 0, i, hn => by
    rw [readProxies, List.drop_eq_nil_of_le (by omega)]; rfl
  | n + 1, i, hn => by
    have hi : i < ls.length := by omega
    rw [readProxies, proxy_read e z zero dflt ls i ls[i] (List.getElem?_eq_getElem hi) (h _ (List.getElem_mem hi)),
      proxies_read e z zero dflt ls h n (i + 1) (by omega), List.drop_eq_getElem_cons hi]
    rfl

theorem shrinks_decreasing : ∀ (l : List V3i) (a : V3i), Shrinks a l → Resample.decreasing a l = true
  | [], _, _ => rfl
  | b :: l, a, h => by
    obtain ⟨⟨h1, h2, h3⟩, h4, h5⟩ := h
    rw [Resample.decreasing, if_neg (by omega), if_neg, shrinks_decreasing l b h5]
    rintro ⟨g1, g2, g3⟩
    apply h4
    cases a; cases b
    simp only at h1 h2 h3 g1 g2 g3
    simp only [V3i.mk.injEq]
    omega

/-! ## The layer -/

/-- The entries before have other names than those the format uses. -/
def MipForeign (pre : List Entry) : Prop := ∀ x ∈ pre, plainName (nameOf x) ∧ nameOf x ∉ mipNames

theorem mip_entry_names (type : DataType) (cls : Name) (extents dw : Box3i) (ls : List (List Entry)) :
    ∀ x ∈ mipEntries type cls extents dw ls, nameOf x ∈ mipNames := by
  intro x h
  simp only [mipEntries, windowEntries, List.mem_append, List.mem_cons, List.not_mem_nil, or_false] at h
  rcases h with (rfl | rfl | rfl | rfl | rfl) | rfl | rfl | rfl | rfl | rfl <;> simp only [nameOf] <;> decide

theorem attr_string (g nm : Name) (v : List UInt8) (es : List Entry) (hs : (47 : UInt8) ∉ nm)
    (hn : ∀ x ∈ es, plainName (nameOf x)) (hf : firstOf .attribute nm es = some (.attribute nm .string v))
    (hv : (0 : UInt8) ∉ v) : attr .string nm (groupKids g es) = .ok v := by
  obtain ⟨⟨a, h1, h2⟩, _, _⟩ := C36_attribute_round_trip g nm .string v es hs hn hf (fun h => absurd rfl h)
  rw [if_pos rfl, C36_string_without_nul v hv] at h2
  simp only [attr, h1, h2]

theorem class_cases (cls : Name) (h : cls = denseClass ∨ cls = sparseClass) : (0 : UInt8) ∉ cls := by
  rcases h with rfl | rfl <;> decide

/-- What is read of a MIP field that was written. -/
def lazyOf (type : DataType) (cls path : Name) (levels : List (Single α)) : Lazy where
  cls := cls
  type := type
  extents := ((levels.head?).map Single.extents).getD ⟨⟨0, 0, 0⟩, ⟨0, 0, 0⟩⟩
  dw := ((levels.head?).map Single.dw).getD ⟨⟨0, 0, 0⟩, ⟨0, 0, 0⟩⟩
  res := levels.map fun l => mipRes l.extents
  paths := (List.range levels.length).map (levelPath path)

theorem mip_read_setup [DecidableEq α] (e : Elem α) (hv : isVoxelType e.type = true) (z : Zlib) (zero dflt : α) (cls : Name)
    (hcls : cls = denseClass ∨ cls = sparseClass) (extents dw : Box3i)
    (levels : List (Level α)) (hgood : ∀ l ∈ levels, GoodLevel e z zero dflt l) (hf : levels.length < 2 ^ 31)
    (g path : Name) (pre post : List Entry) (hp : MipForeign pre) (hq : ∀ x ∈ post, plainName (nameOf x)) :
    readMip e.type path (groupKids g (pre ++ mipEntries e.type cls extents dw (levels.map (Level.entries e)) ++ post)) =
      setupLazyLoad cls e.type ((List.range levels.length).map (levelPath path))
        (levels.map fun l => (l.single.extents, l.single.dw)) ∧
    find .group kMipGroup (groupKids g (pre ++ mipEntries e.type cls extents dw (levels.map (Level.entries e)) ++ post)) =
      some (some (groupKids kMipGroup (mipGroup (levels.map (Level.entries e))))) ∧
    ∀ t, t ≠ e.type →
      readMip t path (groupKids g (pre ++ mipEntries e.type cls extents dw (levels.map (Level.entries e)) ++ post)) = .null := by
  generalize hE : mipEntries e.type cls extents dw (levels.map (Level.entries e)) = E
  have hE' : ∀ x ∈ E, nameOf x ∈ mipNames := hE ▸ mip_entry_names _ _ _ _ _
  have hn : ∀ x ∈ pre ++ E ++ post, plainName (nameOf x) := by
    intro x hx
    rw [List.mem_append, List.mem_append] at hx
    rcases hx with (h | h) | h
    · exact (hp x h).1
    · exact (mipNames_ok _ (hE' x h)).2
    · exact hq x h
  have ff : ∀ k nm, nm ∈ mipNames → firstOf k nm (pre ++ E ++ post) = firstOf k nm (E ++ post) := by
    intro k nm hm
    rw [List.append_assoc]
    apply firstOf_skip
    intro x hx e
    exact (hp x hx).2 (e ▸ hm)
  have s := fun nm hm => (mipNames_ok nm hm).1
  have a1 := attr_get g kVersion .int32 (encInt 1) _ (s _ (by decide)) hn (by rw [ff _ _ (by decide), ← hE]; rfl) (by decide) rfl
  have a2 := attr_get g kComponents .uint8 [UInt8.ofNat (dims e.type)] _ (s _ (by decide)) hn
    (by rw [ff _ _ (by decide), ← hE]; rfl) (by decide) rfl
  have a3 := attr_string g kBaseType cls _ (s _ (by decide)) hn (by rw [ff _ _ (by decide), ← hE]; rfl) (class_cases cls hcls)
  have a4 := (dataset_get false g kDummy e.type [] _ (s _ (by decide)) hn (by simp)
    (by rw [ff _ _ (by decide), ← hE]; rfl)).2
  have a5 := find_group g kMipGroup _ (mipGroup (levels.map (Level.entries e))) (s _ (by decide)) hn
    (by rw [ff _ _ (by decide), ← hE]; rfl)
  have a6 := attr_get kMipGroup kLevels .uint32 (le32 (levels.map (Level.entries e)).length) _ (s _ (by decide))
    (mipGroup_plain (levels.map (Level.entries e))) rfl (by decide) rfl
  have hlen : decInt (le32 (levels.map (Level.entries e)).length) = (levels.length : Int) := by
    rw [List.length_map]
    have := decInt_encInt (levels.length : Int) ⟨by omega, by omega⟩
    rw [encInt, Int.emod_eq_of_lt (by omega) (by omega), Int.toNat_natCast] at this
    exact this
  simp only [Bool.false_eq_true, if_false] at a4
  have hty : ∀ t, readMip t path (groupKids g (pre ++ E ++ post)) =
      if some (le32 e.type.code) = some (le32 t.code) ∧ isVoxelType t = true then
        readInternal cls t path (groupKids g (pre ++ E ++ post)) else .null := by
    intro t
    rw [readMip, a1, bind_ok, a2, bind_ok, a3, bind_ok, a4]
    rw [if_neg (by rw [decInt_encInt 1 (by omega)]; simp)]
    simp only
    rw [if_pos hcls]
  refine ⟨?_, a5, fun t ht => ?_⟩
  · rw [hty, if_pos ⟨rfl, hv⟩, readInternal, a2, bind_ok, a5]
    simp only [Option.getD_some]
    rw [a6, bind_ok, hlen, Int.toNat_natCast]
    rw [proxies_read e z zero dflt levels hgood levels.length 0 (by omega), bind_ok, List.drop_zero]
  · rw [hty, if_neg]
    rintro ⟨h1, -⟩
    rw [Option.some.injEq, type_inj] at h1
    exact ht h1.symm

theorem mip_read [DecidableEq α] (e : Elem α) (hv : isVoxelType e.type = true) (z : Zlib) (zero dflt : α) (cls : Name)
    (levels : List (Level α)) (H : GoodMip e z zero dflt cls levels) (g path : Name) (pre post : List Entry)
    (hp : MipForeign pre) (hq : ∀ x ∈ post, plainName (nameOf x)) :
    readMip e.type path (groupKids g (pre ++ writeMip e cls levels ++ post)) =
      .ok (lazyOf e.type cls path (levels.map Level.single)) ∧
    find .group kMipGroup (groupKids g (pre ++ writeMip e cls levels ++ post)) =
      some (some (groupKids kMipGroup (mipGroup (levels.map (Level.entries e))))) ∧
    ∀ t, t ≠ e.type → readMip t path (groupKids g (pre ++ writeMip e cls levels ++ post)) = .null := by
  obtain ⟨l, ls, rfl, hsh⟩ := H.shrinks
  have hcls : cls = denseClass ∨ cls = sparseClass := by
    have := (H.good l (by simp)).2
    rw [← this]
    cases l <;> simp [Level.single, Single.cls]
  obtain ⟨h1, h2, h3⟩ := mip_read_setup e hv z zero dflt cls hcls l.single.extents l.single.dw (l :: ls)
    (fun x hx => (H.good x hx).1) H.few g path pre post hp hq
  refine ⟨?_, h2, h3⟩
  refine h1.trans ?_
  have hd : Resample.decreasing l.single.extents.size ((ls.map fun l => (l.single.extents, l.single.dw)).map fun q => q.1.size) =
      true := by
    rw [List.map_map]
    exact shrinks_decreasing _ _ hsh
  rw [List.map_cons, setupLazyLoad]
  refine (if_pos hd).trans ?_
  simp [lazyOf, Function.comp_def]

theorem level_read [DecidableEq α] (e : Elem α) (L : Lawful e) (hv : isVoxelType e.type = true) (z : Zlib) (hz : ZlibOk z)
    (zero dflt : α) (g : Name) (l : Level α) (h : GoodLevel e z zero dflt l) (threads : Nat) (hT : 0 < threads)
    (sched : List Nat) :
    (readSingle e z zero dflt threads sched l.single.cls (groupKids g (l.entries e)) = .running ∨
      readSingle e z zero dflt threads sched l.single.cls (groupKids g (l.entries e)) = .ok l.single) ∧
    ∃ rest, readSingle e z zero dflt threads (sched ++ rest) l.single.cls (groupKids g (l.entries e)) = .ok l.single := by
  have hno : Foreign [] := fun x hx => by simp at hx
  cases l with
  | dense f =>
    obtain ⟨⟨ext, dw, f0, ops, h0, hf⟩, hx, hd⟩ := h
    have := C37_dense_round_trip e L hv dflt g [] [] hno (by simp) ext dw f0 h0 ops f hf hx hd
    rw [List.append_nil, List.nil_append] at this
    have e1 : ∀ sched, readSingle e z zero dflt threads sched (Level.dense f).single.cls (groupKids g ((Level.dense f).entries e)) =
        .ok (Level.dense f).single := by
      intro sched
      show readSingle e z zero dflt threads sched denseClass (groupKids g (denseEntries e f)) = _
      rw [readSingle, if_pos rfl, this]
      rfl
    exact ⟨.inr (e1 _), [], e1 _⟩
  | sparse f es =>
    obtain ⟨hr, hst, wt, ws, oob, hW, hw, hex⟩ := h
    have key : ∀ sched, (readSparse e z zero dflt threads sched (groupKids g es) = .running ∨
          readSparse e z zero dflt threads sched (groupKids g es) = .ok f) ∧
        ∃ rest, readSparse e z zero dflt threads (sched ++ rest) (groupKids g es) = .ok f := by
      intro sched
      rcases hex with hex | hall
      · have := C38_sparse_round_trip e L hv z hz zero dflt g [] [] hno (by simp) f hr hst wt hW ws oob hex es hw threads hT sched
        rw [List.append_nil, List.nil_append] at this
        exact this
      · have := C38_fully_allocated_round_trip e L hv z hz zero dflt g [] [] hno (by simp) f hr hst hall wt hW ws oob es hw
          threads hT sched
        rw [List.append_nil, List.nil_append] at this
        exact this
    have e1 : ∀ sched, readSingle e z zero dflt threads sched (Level.sparse f es).single.cls
        (groupKids g ((Level.sparse f es).entries e)) =
        (readSparse e z zero dflt threads sched (groupKids g es)).bind fun f => .ok (.sparse f) := by
      intro sched
      show readSingle e z zero dflt threads sched sparseClass (groupKids g es) = _
      rw [readSingle, if_neg (by decide), if_pos rfl]
    obtain ⟨h1, rest, h2⟩ := key sched
    refine ⟨?_, rest, ?_⟩
    · rw [e1]
      rcases h1 with h1 | h1
      · left; rw [h1]; rfl
      · right; rw [h1]; rfl
    · rw [e1, h2]; rfl

/-- Level `i` of a MIP field that was read is loaded as the field `f`: whatever the schedule of the threads that read its
blocks, they give `f` when they have ended, and they can always end. -/
def LoadsAs (e : Elem α) (z : Zlib) (zero dflt : α) (threads : Nat) (root : List Tree) (m : Lazy) (i : Nat) (f : Single α) :
    Prop :=
  ∀ sched, (loadLevel e z zero dflt threads sched root m i = some .running ∨
      loadLevel e z zero dflt threads sched root m i = some (.ok f)) ∧
    ∃ rest, loadLevel e z zero dflt threads (sched ++ rest) root m i = some (.ok f)

/-- A MIP field that was read is the one that was written: the class and voxel type, the windows of level 0, the number of
levels and their resolutions; and every level, when it is loaded from the file with these contents, is the field that was
written. There are no other levels. -/
structure SameMip (e : Elem α) (z : Zlib) (zero dflt : α) (root : List Tree) (cls : Name) (levels : List (Level α)) (m : Lazy) :
    Prop where
  cls : m.cls = cls
  type : m.type = e.type
  windows : ∀ l, levels.head? = some l → m.extents = l.single.extents ∧ m.dw = l.single.dw
  res : List.Forall₂ (fun l (r : V3i) => r.x = l.single.extents.size.x + 1 ∧ r.y = l.single.extents.size.y + 1 ∧
    r.z = l.single.extents.size.z + 1) levels m.res
  level : ∀ threads, 0 < threads → ∀ i l, levels[i]? = some l → LoadsAs e z zero dflt threads root m i l.single
  only : ∀ threads sched i, levels.length ≤ i → loadLevel e z zero dflt threads sched root m i = none

theorem level_loads [DecidableEq α] (e : Elem α) (L : Lawful e) (hv : isVoxelType e.type = true) (z : Zlib) (hz : ZlibOk z)
    (zero dflt : α) (cls : Name) (levels : List (Level α)) (H : GoodMip e z zero dflt cls levels) (path : Name)
    (root kids : List Tree) (hroot : find .group path root = some (some kids))
    (hk : find .group kMipGroup kids = some (some (groupKids kMipGroup (mipGroup (levels.map (Level.entries e))))))
    (threads : Nat) (hT : 0 < threads) (i : Nat) (l : Level α) (hi : levels[i]? = some l) :
    LoadsAs e z zero dflt threads root (lazyOf e.type cls path (levels.map Level.single)) i l.single := by
  intro sched
  have hlt : i < levels.length := (List.getElem?_eq_some_iff.1 hi).1
  have hpath : (lazyOf e.type cls path (levels.map Level.single)).paths[i]? = some (levelPath path i) := by
    simp [lazyOf, hlt]
  have hg := mipGroup_level (levels.map (Level.entries e)) i (l.entries e) (by rw [List.getElem?_map, hi]; rfl)
  have hf : find .group (levelPath path i) root = some (some (groupKids (levelName i) (l.entries e))) := by
    rw [levelPath, find_below _ _ _ _ _ hroot, find_below _ _ _ _ _ hk, hg]
  have hmem : l ∈ levels := List.mem_of_getElem? hi
  obtain ⟨h1, h2⟩ := H.good l hmem
  have hl := level_read e L hv z hz zero dflt (levelName i) l h1 threads hT sched
  have e1 : ∀ s, loadLevel e z zero dflt threads s root (lazyOf e.type cls path (levels.map Level.single)) i =
      some (match readSingle e z zero dflt threads s l.single.cls (groupKids (levelName i) (l.entries e)) with
        | .null => .exception
        | r => r) := by
    intro s
    rw [loadLevel, hpath, Option.map_some, hf, h2]
    rfl
  obtain ⟨h3, rest, h4⟩ := hl
  refine ⟨?_, rest, ?_⟩
  · rw [e1]
    rcases h3 with h | h
    · left; rw [h]
    · right; rw [h]
  · rw [e1, h4]

theorem lazy_same [DecidableEq α] (e : Elem α) (L : Lawful e) (hv : isVoxelType e.type = true) (z : Zlib) (hz : ZlibOk z)
    (zero dflt : α) (cls : Name) (levels : List (Level α)) (H : GoodMip e z zero dflt cls levels) (path : Name)
    (root kids : List Tree) (hroot : find .group path root = some (some kids))
    (hk : find .group kMipGroup kids = some (some (groupKids kMipGroup (mipGroup (levels.map (Level.entries e)))))) :
    SameMip e z zero dflt root cls levels (lazyOf e.type cls path (levels.map Level.single)) where
  cls := rfl
  type := rfl
  windows := by
    intro l hl
    simp [lazyOf, hl]
  res := by
    simp only [lazyOf, List.map_map]
    rw [List.forall₂_map_right_iff]
    exact List.forall₂_same.2 fun _ _ => ⟨rfl, rfl, rfl⟩
  level := fun threads hT i l hi => level_loads e L hv z hz zero dflt cls levels H path root kids hroot hk threads hT i l hi
  only := by
    intro threads sched i hi
    have : (lazyOf e.type cls path (levels.map Level.single)).paths[i]? = none := by
      simp [lazyOf, hi]
    rw [loadLevel, this]
    rfl

/-! ## The properties -/

/-- **C75.** A MIP field with any number of dense or sparse levels of any voxel type is written to the group of its layer,
among whatever other entries. The group is read at its path in the file: that gives a MIP field of the class of the levels,
with the windows, and the number of levels and the resolutions that were written. Loading any level later from the file, with
any number of threads and any schedule, gives exactly the level that was written: its windows and every voxel. -/
theorem C75_round_trip [DecidableEq α] (e : Elem α) (L : Lawful e) (hv : isVoxelType e.type = true) (z : Zlib) (hz : ZlibOk z)
    (zero dflt : α) (cls : Name) (levels : List (Level α)) (H : GoodMip e z zero dflt cls levels) (g path : Name)
    (pre post : List Entry) (hp : MipForeign pre) (hq : ∀ x ∈ post, plainName (nameOf x)) (root : List Tree)
    (hroot : find .group path root = some (some (groupKids g (pre ++ writeMip e cls levels ++ post)))) :
    ∃ m, readMip e.type path (groupKids g (pre ++ writeMip e cls levels ++ post)) = .ok m ∧
      SameMip e z zero dflt root cls levels m := by
  obtain ⟨h1, h2, -⟩ := mip_read e hv z zero dflt cls levels H g path pre post hp hq
  exact ⟨_, h1, lazy_same e L hv z hz zero dflt cls levels H path root _ hroot h2⟩

/-- **C75, other voxel types** give a null pointer. -/
theorem C75_other_type_is_null [DecidableEq α] (e : Elem α) (hv : isVoxelType e.type = true) (z : Zlib)
    (zero dflt : α) (cls : Name) (levels : List (Level α)) (H : GoodMip e z zero dflt cls levels) (g path : Name)
    (pre post : List Entry) (hp : MipForeign pre) (hq : ∀ x ∈ post, plainName (nameOf x)) (t : DataType) (ht : t ≠ e.type) :
    readMip t path (groupKids g (pre ++ writeMip e cls levels ++ post)) = .null :=
  (mip_read e hv z zero dflt cls levels H g path pre post hp hq).2.2 t ht

theorem decreasing_shrinks : ∀ (l : List V3i) (a : V3i), Resample.decreasing a l = true → Shrinks a l
  | [], _, _ => trivial
  | b :: l, a, h => by
    rw [Resample.decreasing] at h
    split at h
    · simp at h
    · split at h
      · simp at h
      · rename_i h1 h2
        refine ⟨by omega, ?_, decreasing_shrinks l b h⟩
        rintro rfl
        omega

/-- **C75, levels that do not shrink**, or no levels at all: a file in which a level has more voxels than the one before in
some direction, or as many in all, gives an exception, not a field. -/
theorem C75_levels_checked [DecidableEq α] (e : Elem α) (hv : isVoxelType e.type = true) (z : Zlib) (zero dflt : α) (cls : Name)
    (hcls : cls = denseClass ∨ cls = sparseClass) (extents dw : Box3i)
    (levels : List (Level α)) (hgood : ∀ l ∈ levels, GoodLevel e z zero dflt l) (hf : levels.length < 2 ^ 31)
    (hbad : ∀ l ls, levels = l :: ls → ¬ Shrinks l.single.extents.size (ls.map fun x => x.single.extents.size))
    (g path : Name) (pre post : List Entry) (hp : MipForeign pre) (hq : ∀ x ∈ post, plainName (nameOf x)) :
    readMip e.type path (groupKids g (pre ++ mipEntries e.type cls extents dw (levels.map (Level.entries e)) ++ post)) =
      .exception := by
  rw [(mip_read_setup e hv z zero dflt cls hcls extents dw levels hgood hf g path pre post hp hq).1]
  cases levels with
  | nil => rfl
  | cons l ls =>
    rw [List.map_cons, setupLazyLoad]
    refine if_neg fun h => hbad l ls rfl ?_
    rw [List.map_map] at h
    exact decreasing_shrinks _ _ h

/-- Two voxels. -/
def pairBox : Box3i := ⟨⟨0, 0, 0⟩, ⟨1, 0, 0⟩⟩
def pairField {β : Type} (a b : β) : Dense β := ⟨pairBox, pairBox, 2, 2, [a, b]⟩

theorem pair_storable {β : Type} (dflt a b : β) : DenseStorable dflt (pairField a b) := by
  have hv : V32 pairBox.min ∧ V32 pairBox.max := by
    constructor <;> refine ⟨⟨?_, ?_⟩, ⟨?_, ?_⟩, ⟨?_, ?_⟩⟩ <;> decide
  exact ⟨⟨pairBox, pairBox, _, [.write ⟨0, 0, 0⟩ a, .write ⟨1, 0, 0⟩ b], rfl, rfl⟩, hv, hv⟩

/-- One voxel. -/
def oneBox : Box3i := ⟨⟨0, 0, 0⟩, ⟨0, 0, 0⟩⟩
def oneField {β : Type} (a : β) : Dense β := ⟨oneBox, oneBox, 1, 1, [a]⟩

theorem one_storable {β : Type} (dflt a : β) : DenseStorable dflt (oneField a) := by
  have hv : V32 oneBox.min ∧ V32 oneBox.max := by
    constructor <;> refine ⟨⟨?_, ?_⟩, ⟨?_, ?_⟩, ⟨?_, ?_⟩⟩ <;> decide
  exact ⟨⟨oneBox, oneBox, _, [.write ⟨0, 0, 0⟩ a], rfl, rfl⟩, hv, hv⟩

/-- Two levels, of two voxels and of one. -/
def twoLevels {β : Type} (a b c : β) : List (Level β) := [.dense (pairField a b), .dense (oneField c)]

theorem twoLevels_good {β : Type} [DecidableEq β] (e : Elem β) (z : Zlib) (dflt a b c : β) :
    GoodMip e z dflt dflt denseClass (twoLevels a b c) := by
  refine ⟨?_, by simp [twoLevels], _, _, rfl, ?_⟩
  · intro l hl
    simp only [twoLevels, List.mem_cons, List.not_mem_nil, or_false] at hl
    rcases hl with rfl | rfl
    · exact ⟨pair_storable _ _ _, rfl⟩
    · exact ⟨one_storable _ _, rfl⟩
  · exact show Shrinks pairBox.size [oneBox.size] from ⟨by decide, by decide, trivial⟩

/-- Two levels of equal size cannot be read back. -/
example [DecidableEq α] (e : Elem α) (hv : isVoxelType e.type = true) (z : Zlib) (dflt a b : α) :
    readMip e.type [47, 97] (groupKids [97] ([] ++ mipEntries e.type denseClass pairBox pairBox
      (([.dense (pairField a b), .dense (pairField b a)] : List (Level α)).map (Level.entries e)) ++ [])) = .exception := by
  refine C75_levels_checked e hv z dflt dflt denseClass (.inl rfl) pairBox pairBox _ ?_ (by simp) ?_ [97] [47, 97] [] []
    (by intro x hx; simp at hx) (by simp)
  · intro l hl
    simp only [List.mem_cons, List.not_mem_nil, or_false] at hl
    rcases hl with rfl | rfl <;> exact pair_storable _ _ _
  · intro l ls h
    simp only [List.cons.injEq] at h
    obtain ⟨rfl, rfl⟩ := h
    intro hs
    exact hs.2.1 rfl

end F3D.Props
