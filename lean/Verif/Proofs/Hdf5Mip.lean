import Verif.Spec.Hdf5Mip

/-! Lemmas about MIP fields in HDF5 layers. -/

namespace F3D
namespace Hdf5
open Ogawa Og FieldIO
open MipIO (denseClass sparseClass mipClass kMipGroup kLevels kBaseType levelName levelPath setupLazyLoad Lazy mipRes)
open Props (FreshLayer LayerKept HeldByFormat ValuesFit dense_fits dense_run_wf SparseReachable BlocksFit blocks_fit reachable_refines)

variable {α : Type}

/-! ## Paths -/

theorem splitSlash_ne : ∀ s : Name, splitSlash s ≠ []
  | [] => by simp [splitSlash]
  | c :: r => by
    rw [splitSlash]
    split
    · simp
    · split <;> simp

theorem splitSlash_append : ∀ (a b : Name), splitSlash (a ++ 47 :: b) = splitSlash a ++ splitSlash b
  | [], b => by simp [splitSlash]
  | c :: r, b => by
    rw [List.cons_append, splitSlash, splitSlash, splitSlash_append r b]
    by_cases hc : c = 47
    · rw [if_pos hc, if_pos hc]; rfl
    · rw [if_neg hc, if_neg hc]
      cases h : splitSlash r with
      | nil => exact absurd h (splitSlash_ne r)
      | cons x y => rfl

theorem steps_append (a b : Name) (ha : (0 : UInt8) ∉ a) (hb : (0 : UInt8) ∉ b) : steps (a ++ 47 :: b) = steps a ++ steps b := by
  unfold steps
  rw [cstr_plain _ (by simp [ha, hb]), cstr_plain a ha, cstr_plain b hb, splitSlash_append, List.filter_append]

theorem locate_root (s : Name) : locate [] s = steps s := by
  unfold locate
  split
  · rfl
  · rfl

theorem at_append : ∀ (p q : List Name) (o g : Obj), o.at p = some g → o.at (p ++ q) = g.at q
  | [], q, o, g, h => by
    rw [Obj.at, Option.some.injEq] at h
    rw [h]; rfl
  | n :: p, q, o, g, h => by
    rw [List.cons_append, Obj.at]
    rw [Obj.at] at h
    cases hn : named n o.links with
    | none => rw [hn] at h; simp at h
    | some k =>
      rw [hn] at h
      exact at_append p q k g h

/-- Opening a group below a group. -/
theorem open_below (root g : Obj) (a b : Name) (ha : (0 : UInt8) ∉ a) (hb : (0 : UInt8) ∉ b)
    (h : openGroup root a = some g) : openGroup root (a ++ 47 :: b) = openGroup g b := by
  unfold openGroup at *
  rw [locate_root] at *
  rw [locate_root, steps_append a b ha hb]
  rw [Option.filter_eq_some_iff] at h
  rw [at_append _ _ _ _ h.1]

theorem open_link (g k : Obj) (n : Name) (hn : Step n) (h : named n g.links = some k) (hk : k.isGroup = true) :
    openGroup g n = some k := by
  unfold openGroup
  rw [locate_plain hn, List.nil_append]
  simp only [Obj.at, h]
  simp [Option.filter, hk]

/-! ## One level -/

theorem new_fresh : FreshLayer .new := ⟨rfl, fun _ _ => rfl, fun _ _ => rfl⟩

theorem level_written [DecidableEq α] (conv : HType → HType → List UInt8 → List UInt8) (gzip : Bool) (maxMem : Nat)
    (hmax : 0 < maxMem) (e : Elem α) (L : Lawful e) (hv : isVoxelType e.type = true) (zero dflt : α) (x : AnyField α)
    (hx : HeldByFormat false e zero x) (path : Name) :
    ∃ r g', x.write gzip e .new = (r, g') ∧ (r = .ok ∨ r = .failed) ∧ g'.isGroup = true ∧
      getInts 6 kExtents g' = .ok (boxInts x.extents) ∧ getInts 6 kDataWindow g' = .ok (boxInts x.dw) ∧
      (Lost gzip e x → readAny conv maxMem e zero dflt path x.cls g' = .exception) ∧
      (¬ Lost gzip e x → readAny conv maxMem e zero dflt path x.cls g' = .ok x) := by
  have F := new_fresh.free
  cases x with
  | dense f =>
    obtain ⟨⟨ext, dw, f0, ops, h0, hf⟩, hfit, -⟩ := hx
    have hw : f0.WF := by
      by_cases hw : dw.isEmpty = true
      · have hb : dw.max.x < dw.min.x ∨ dw.max.y < dw.min.y ∨ dw.max.z < dw.min.z := by
          simpa [Box3i.isEmpty, or_assoc] using hw
        simp [Dense.setSize, hb] at h0
      · obtain ⟨k, hk, kwf, _⟩ := Dense.setSize_ok (dflt := zero) (e := ext) (Bool.eq_false_iff.mpr hw)
        rw [h0] at hk; cases hk; exact kwf
    have wf := dense_run_wf zero ops f0 f hw hf
    obtain ⟨hi, hl⟩ := dense_fits e f wf hfit
    have hpos : 1 ≤ f.data.length * dims e.type := Nat.mul_pos (dense_nonempty f wf) (dims_pos _)
    rw [hl] at hpos
    by_cases hlost : Lost gzip e (.dense f)
    · obtain ⟨hz, h1⟩ := hlost
      refine ⟨.failed, addTo .new (denseAttrs e f) [], ?_, .inr rfl, rfl,
        getInts_add _ F _ _ kExtents 6 _ (by decide) rfl rfl, getInts_add _ F _ _ kDataWindow 6 _ (by decide) rfl rfl, ?_,
        fun h => absurd ⟨hz, h1⟩ h⟩
      · show writeDense gzip e f .new = _
        rw [writeDense_head gzip e f .new F wf hi, hz,
          putChunked_small _ _ _ _ (by rw [dense_total e f wf, hl, h1]; omega)]
      · intro _
        unfold readAny
        have : readDense conv e dflt (addTo .new (denseAttrs e f) []) = .exception := by
          unfold readDense
          rw [readWindows_add .new F _ _ f.extents f.dw rfl rfl rfl, bind_ok,
            getInt_add .new F _ _ kComponents (dims e.type) (by decide) rfl, bind_ok]
          have : getData kData (addTo .new (denseAttrs e f) []) = .exception := by
            unfold getData
            rw [addTo, Obj.links, List.append_nil, F.links kData (by decide)]
          rw [this]
          rfl
        rw [if_pos (by rfl), this]
        rfl
    · have h2 : gzip = true → 2 ≤ f.data.length * dims e.type := by
        intro hz
        have : ¬ (f.dw.nx * f.dw.ny * f.dw.nz * dims e.type = 1) := fun h => hlost ⟨hz, h⟩
        rw [hl]
        generalize f.dw.nx * f.dw.ny * f.dw.nz * dims e.type = n at *
        omega
      refine ⟨.ok, _, writeDense_ok gzip e f .new F wf hi h2, .inl rfl, rfl,
        getInts_add _ F _ _ kExtents 6 _ (by decide) rfl rfl, getInts_add _ F _ _ kDataWindow 6 _ (by decide) rfl rfl,
        fun h => absurd h hlost, fun _ => ?_⟩
      unfold readAny
      rw [if_pos (by rfl), readDense_back conv e L hv dflt f .new F wf hi]
      rfl
  | sparse f =>
    obtain ⟨hf, hfit⟩ := hx
    obtain ⟨m, hr⟩ := reachable_refines hf
    have hi := blocks_fit hr.wf hfit
    refine ⟨.ok, _, writeSparse_ok gzip e f .new F hr.wf hi, .inl rfl, rfl,
      getInts_add _ F _ _ kExtents 6 _ (by decide) rfl rfl, getInts_add _ F _ _ kDataWindow 6 _ (by decide) rfl rfl,
      fun h => absurd h id, fun _ => ?_⟩
    unfold readAny
    have h1 : (AnyField.sparse f).cls ≠ denseClass := by
      show sparseClass ≠ _
      decide
    rw [if_neg h1, if_pos (by rfl), readSparse_back conv maxMem hmax e L hv zero dflt f .new F hr.wf hr.fits hi]
    rfl

/-! ## All levels -/

/-- The groups of the levels. -/
def levelLinks (gzip : Bool) (e : Elem α) : Nat → List (AnyField α) → List (Name × Obj)
  | _, [] => []
  | i, f :: fs => (levelName i, (f.write gzip e .new).2) :: levelLinks gzip e (i + 1) fs

theorem levelLinks_get (gzip : Bool) (e : Elem α) : ∀ (fs : List (AnyField α)) (i j : Nat) (x : AnyField α), fs[j]? = some x →
    named (levelName (i + j)) (levelLinks gzip e i fs) = some (x.write gzip e .new).2
  | [], i, j, x, h => by simp at h
  | f :: fs, i, 0, x, h => by
    simp only [List.getElem?_cons_zero, Option.some.injEq] at h
    subst h
    rw [levelLinks, Nat.add_zero, named, if_pos rfl]
  | f :: fs, i, j + 1, x, h => by
    have hne : levelName i ≠ levelName (i + (j + 1)) := fun e => by
      have := Props.levelName_inj e
      omega
    rw [levelLinks, named, if_neg hne]
    have := levelLinks_get gzip e fs (i + 1) j x (by simpa using h)
    rw [show i + (j + 1) = i + 1 + j by omega]
    exact this

theorem writeLevels_new (gzip : Bool) (e : Elem α) (as : List (Name × Attr)) : ∀ (fs : List (AnyField α)) (i : Nat)
    (ls : List (Name × Obj)), (∀ f ∈ fs, (f.write gzip e .new).1 = .ok ∨ (f.write gzip e .new).1 = .failed) →
    (∀ j, i ≤ j → named (levelName j) ls = none) →
    writeLevels gzip e i fs (.group as ls) = (.ok, .group as (ls ++ levelLinks gzip e i fs))
  | [], i, ls, _, _ => by simp [writeLevels, levelLinks, done]
  | f :: fs, i, ls, h, hn => by
    have h0 := hn i (Nat.le_refl i)
    have h1 : putGroup (levelName i) (.group as ls) = (.ok, .group as (ls ++ [(levelName i, .new)])) := by
      simp [putGroup, h0]
    have h2 : ignoring (inside [levelName i] (f.write gzip e)) (.group as (ls ++ [(levelName i, .new)])) =
        (.ok, .group as (ls ++ [(levelName i, (f.write gzip e .new).2)])) := by
      unfold ignoring
      rw [inside_one _ _ _ _ .new (named_last _ h0), set_last _ _ h0]
      rcases h f (by simp) with h | h <;> rw [h]
    rw [writeLevels, seq_ok h1, seq_ok h2, writeLevels_new gzip e as fs (i + 1) _ (fun f hf => h f (by simp [hf])) (by
      intro j hj
      rw [named_append_none (hn j (by omega))]
      have hne : levelName i ≠ levelName j := fun e => by
        have := Props.levelName_inj e
        omega
      rw [named, if_neg hne]
      rfl)]
    rw [List.append_assoc]
    rfl

def mipAttrs (e : Elem α) (cls : Name) (extents dw : Box3i) : List (Name × Attr) :=
  [(kVersion, .ints [1]), (kExtents, .ints (boxInts extents)), (kDataWindow, .ints (boxInts dw)),
    (kComponents, .ints [(dims e.type : Int)]), (kBits, .ints [(bits e.type : Int)]), (kBaseType, .str cls)]

/-- The group of the levels. -/
def levelsObj (gzip : Bool) (e : Elem α) (levels : List (AnyField α)) : Obj :=
  .group [(kLevels, .ints [asInt levels.length])] (levelLinks gzip e 0 levels)

theorem writeMipAs_ok (gzip : Bool) (e : Elem α) (cls : Name) (extents dw : Box3i) (levels : List (AnyField α)) (g : Obj)
    (hg : FreshLayer g) (hw : ∀ f ∈ levels, (f.write gzip e .new).1 = .ok ∨ (f.write gzip e .new).1 = .failed) :
    writeMipAs gzip e cls extents dw levels g =
      (.ok, addTo g (mipAttrs e cls extents dw) [(kMipGroup, levelsObj gzip e levels)]) := by
  have F := hg.free
  have n0 : g = addTo g [] [] := (addTo_nil hg.1).symm
  have b1 : named kBaseType g.attrs = none := hg.2.1 _ (by decide)
  have b2 : named kMipGroup g.links = none := hg.2.2 _ (by decide)
  have s1 := must_ok (put_field g F [] [] kVersion (.ints [1]) (by decide) rfl)
  have s2 := must_ok (put_field g F [(kVersion, .ints [1])] [] kExtents (.ints (boxInts extents)) (by decide) rfl)
  have s3 := must_ok (put_field g F [(kVersion, .ints [1]), (kExtents, .ints (boxInts extents))] [] kDataWindow
    (.ints (boxInts dw)) (by decide) rfl)
  have s4 := must_ok (put_field g F [(kVersion, .ints [1]), (kExtents, .ints (boxInts extents)), (kDataWindow, .ints (boxInts dw))]
    [] kComponents (.ints [(dims e.type : Int)]) (by decide) rfl)
  have s5 := put_field g F [(kVersion, .ints [1]), (kExtents, .ints (boxInts extents)), (kDataWindow, .ints (boxInts dw)),
    (kComponents, .ints [(dims e.type : Int)])] [] kBits (.ints [(bits e.type : Int)]) (by decide) rfl
  have s6 := must_ok (putAttr_add g [(kVersion, .ints [1]), (kExtents, .ints (boxInts extents)), (kDataWindow, .ints (boxInts dw)),
    (kComponents, .ints [(dims e.type : Int)]), (kBits, .ints [(bits e.type : Int)])] [] kBaseType (.str cls) (by decide)
    (by decide) b1 rfl)
  have s7 : must (putGroup kMipGroup) (addTo g (mipAttrs e cls extents dw) []) =
      (.ok, addTo g (mipAttrs e cls extents dw) [(kMipGroup, .new)]) := by
    apply must_ok
    unfold addTo putGroup
    dsimp only
    rw [List.append_nil, if_neg (by simp [b2])]
  have s8 : (must (putAttr kLevels (.ints [asInt levels.length])) ⨾ writeLevels gzip e 0 levels) .new =
      (.ok, levelsObj gzip e levels) := by
    have t1 : must (putAttr kLevels (.ints [asInt levels.length])) .new =
        (.ok, .group [(kLevels, .ints [asInt levels.length])] []) := by
      apply must_ok
      simp only [putAttr, Obj.new]
      rw [if_neg (by decide)]
      rfl
    rw [seq_ok t1, writeLevels_new gzip e _ levels 0 [] hw (fun _ _ => rfl)]
    rfl
  unfold writeMipAs
  rw [n0, seq_ok s1, List.nil_append, seq_ok s2, List.cons_append, List.nil_append, seq_ok s3]
  rw [List.cons_append, List.cons_append, List.nil_append, seq_ok s4]
  rw [List.cons_append, List.cons_append, List.cons_append, List.nil_append, seq_ok s5]
  rw [List.cons_append, List.cons_append, List.cons_append, List.cons_append, List.nil_append, seq_ok s6]
  rw [List.cons_append, List.cons_append, List.cons_append, List.cons_append, List.cons_append, List.nil_append]
  have s7' := seq_ok (b := inside [kMipGroup] (must (putAttr kLevels (.ints [asInt levels.length])) ⨾
    writeLevels gzip e 0 levels)) s7
  unfold mipAttrs at s7'
  rw [s7']
  show inside [kMipGroup] _ (.group _ (g.links ++ [(kMipGroup, .new)])) = _
  rw [inside_one _ _ _ _ .new (named_last _ b2), set_last _ _ b2, s8, addTo_nil hg.1]
  rfl

/-! ## Reading -/

theorem readProxies_back (mip : Obj) (levels : List (AnyField α)) (h : ∀ i x, levels[i]? = some x →
    readProxy mip i = .ok (x.extents, x.dw)) : ∀ (n i : Nat), i + n = levels.length →
    readProxies mip n i = .ok ((levels.drop i).map fun x => (x.extents, x.dw))
  | 0, i, hn => by
    rw [readProxies, List.drop_of_length_le (by omega)]; rfl
  | n + 1, i, hn => by
    have hi : i < levels.length := by omega
    rw [readProxies, h i levels[i] (List.getElem?_eq_getElem hi), bind_ok, readProxies_back mip levels h n (i + 1) (by omega),
      bind_ok, List.drop_eq_getElem_cons hi]
    rfl

theorem getStr_base (g : Obj) (hg : FreshLayer g) (e : Elem α) (cls : Name) (hc : (0 : UInt8) ∉ cls) (extents dw : Box3i)
    (ls : List (Name × Obj)) : getStr kBaseType (addTo g (mipAttrs e cls extents dw) ls) = .ok cls := by
  unfold getStr
  have : named kBaseType (addTo g (mipAttrs e cls extents dw) ls).attrs = some (.str cls) := by
    rw [addTo, Obj.attrs, named_append_none (hg.2.1 _ (by decide))]
    rfl
  rw [this]
  simp only [cstr_plain cls hc]

theorem type_of_bits {t t' : DataType} (h : isVoxelType t = true) (h' : isVoxelType t' = true) (a : dims t = dims t')
    (b : bitsMatch (bits t) t' = true) : t = t' := by
  cases t <;> first
    | exact absurd h (by decide)
    | (cases t' <;> first
        | rfl
        | exact absurd h' (by decide)
        | exact absurd a (by decide)
        | exact absurd b (by decide))

/-- Reading what was written comes to setting up the levels. -/
theorem readMip_setup (e : Elem α) (hv : isVoxelType e.type = true) (gzip : Bool) (cls : Name)
    (hcls : cls = denseClass ∨ cls = sparseClass) (extents dw : Box3i) (levels : List (AnyField α))
    (hfew : levels.length < 2 ^ 31) (g : Obj) (hg : FreshLayer g) (path : Name)
    (hw : ∀ f ∈ levels, (f.write gzip e .new).2.isGroup = true ∧
      getInts 6 kExtents (f.write gzip e .new).2 = .ok (boxInts f.extents) ∧
      getInts 6 kDataWindow (f.write gzip e .new).2 = .ok (boxInts f.dw)) (t : DataType) :
    readMip t path (addTo g (mipAttrs e cls extents dw) [(kMipGroup, levelsObj gzip e levels)]) =
      if t = e.type then setupLazyLoad cls e.type ((List.range levels.length).map (levelPath path))
        (levels.map fun x => (x.extents, x.dw)) else .null := by
  have F := hg.free
  have hc0 : (0 : UInt8) ∉ cls := by
    rcases hcls with rfl | rfl
    · decide
    · decide
  have hlv : named kMipGroup (addTo g (mipAttrs e cls extents dw) [(kMipGroup, levelsObj gzip e levels)]).links =
      some (levelsObj gzip e levels) := by
    rw [addTo, Obj.links]
    exact named_last _ (hg.2.2 _ (by decide))
  have hp : ∀ i x, levels[i]? = some x → readProxy (levelsObj gzip e levels) i = .ok (x.extents, x.dw) := by
    intro i x hi
    obtain ⟨h1, h2, h3⟩ := hw x (List.mem_of_getElem? hi)
    have := levelLinks_get gzip e levels 0 i x hi
    rw [Nat.zero_add] at this
    unfold readProxy levelsObj Obj.links
    rw [this]
    generalize (x.write gzip e .new).2 = o at *
    cases o with
    | data d => simp [Obj.isGroup] at h1
    | group as ls =>
      simp only [h2, h3, bind_ok, boxOf_ints]
  unfold readMip
  rw [getInt_add g F _ _ kVersion 1 (by decide) rfl, bind_ok, if_neg (by simp),
    getInt_add g F _ _ kComponents (dims e.type) (by decide) rfl, bind_ok,
    getInt_add g F _ _ kBits (bits e.type) (by decide) rfl, bind_ok,
    getStr_base g hg e cls hc0 extents dw _, bind_ok]
  by_cases ht : t = e.type
  · subst ht
    rw [if_pos ⟨rfl, bitsMatch_bits _ hv, hv⟩, if_pos hcls, if_pos rfl]
    unfold readInternal
    rw [getInts_add g F _ _ kExtents 6 _ (by decide) rfl rfl, bind_ok,
      getInts_add g F _ _ kDataWindow 6 _ (by decide) rfl rfl, bind_ok,
      getInt_add g F _ _ kComponents (dims e.type) (by decide) rfl, bind_ok, hlv]
    have hn : getInt kLevels (levelsObj gzip e levels) = .ok (levels.length : Int) := by
      unfold getInt getInts levelsObj
      rw [asInt_small _ hfew]
      rfl
    show (getInt kLevels (levelsObj gzip e levels)).bind _ = _
    rw [hn, bind_ok, Int.toNat_natCast]
    have := readProxies_back (levelsObj gzip e levels) levels hp levels.length 0 (by omega)
    rw [List.drop_zero] at this
    show (readProxies (levelsObj gzip e levels) _ 0).bind _ = _
    rw [this, bind_ok]
  · rw [if_neg ht, if_neg]
    rintro ⟨h1, h2, h3⟩
    exact ht (type_of_bits hv h3 (by exact_mod_cast h1) h2).symm

end Hdf5
end F3D
