import Verif.Spec.Hdf5Files
import Verif.Proofs.Hdf5Meta

/-! Lemmas about whole HDF5 files. -/

namespace F3D
namespace Hdf5
open Ogawa Og FieldIO
open MappingIO (kMapping)
open Metadata (Dict Meta)
open Props (MKind lookup inFile InOrder PlainNames FreshLayer LayerKept)
open Files (kGlobal kVersionNumber kClassName kIsPartition kClassType kLayerText kMetadata removeUniqueId intName nextIndex
  Listing Loaded FieldClass layerPath collect Home nextOf ofUser)

variable {M L F : Type}

theorem OneStep.step {s : Name} (h : OneStep s) : Step s := ⟨h.ne, h.dot, h.slash, h.nul⟩

/-- The group of a layer before the field is written. -/
def layerStart (w : Write M) : Obj :=
  .group [(kClassType, .str kLayerText), (kClassName, .str w.cls)] [(kMetadata, .group (metaAttrs w.info) [])]

theorem layerStart_fresh (w : Write M) : FreshLayer (layerStart w) := by
  refine ⟨rfl, ?_, ?_⟩
  · intro n hn
    rw [named_none]
    intro p hp
    have key : ∀ n ∈ [kVersion, kExtents, kDataWindow, kComponents, kBits, kBlockOrder, kNumBlocks, kBlockRes, kOccupied,
        MipIO.kBaseType],
      kClassType ≠ n ∧ kClassName ≠ n := by decide
    simp only [layerStart, Obj.attrs, List.mem_cons, List.not_mem_nil, or_false] at hp
    rcases hp with rfl | rfl
    · exact (key n hn).1
    · exact (key n hn).2
  · intro n hn
    rw [named_none]
    intro p hp
    have key : ∀ n ∈ [kData, kAllocated, kEmpty, kUData, kVData, kWData, MipIO.kMipGroup], kMetadata ≠ n := by decide
    simp only [layerStart, Obj.links, List.mem_cons, List.not_mem_nil, or_false] at hp
    subst hp
    exact key n hn

theorem layerWriter_new (w : Write M) (h : NamesFit w.info) : layerWriter w .new = w.body (layerStart w) := by
  have h1 : putAttr kClassType (.str kLayerText) .new = (.ok, .group [(kClassType, .str kLayerText)] []) := by
    simp only [putAttr, Obj.new]
    rw [if_neg (by decide)]; rfl
  have h2 : putGroup kMetadata (.group [(kClassType, .str kLayerText)] []) =
      (.ok, .group [(kClassType, .str kLayerText)] [(kMetadata, .new)]) := rfl
  have h3 : inside [kMetadata] (writeMeta w.info) (.group [(kClassType, .str kLayerText)] [(kMetadata, .new)]) =
      (.ok, .group [(kClassType, .str kLayerText)] [(kMetadata, .group (metaAttrs w.info) [])]) := by
    rw [inside_one kMetadata _ _ _ .new (by simp [named]), writeMeta_new _ h.order h.plain h.kind]
    simp [setNamed]
  have h4 : putAttr kClassName (.str w.cls)
      (.group [(kClassType, .str kLayerText)] [(kMetadata, .group (metaAttrs w.info) [])]) = (.ok, layerStart w) := by
    simp only [putAttr]
    rw [if_neg (by rw [show named (cstr kClassName) [(kClassType, Attr.str kLayerText)] = none by decide]; decide)]
    rfl
  unfold layerWriter
  rw [seq_ok h1, seq_ok h2, seq_ok h3, seq_ok h4]

theorem Fits.ok {C : MapIO M} {w : Write M} (h : Fits C w) : Ok C w where
  slash := h.part.1
  nul := h.part.2
  layer := h.layer.step
  mapping := by obtain ⟨g, e, -⟩ := h.mapping; rw [e]
  body := by
    rw [layerWriter_new w h.info]
    obtain ⟨g', e, -⟩ := h.body _ (layerStart_fresh w)
    rw [e]

theorem putAttr_calm (n : Name) (v : Attr) (g : Obj) : (putAttr n v g).1 = .ok ∨ (putAttr n v g).1 = .failed := by
  unfold putAttr
  split
  · split
    · exact .inr rfl
    · exact .inl rfl
  · exact .inr rfl

theorem all_calm : ∀ (l : List W) (g : Obj), (∀ w ∈ l, ∀ g, (w g).1 = .ok ∨ (w g).1 = .failed) →
    (W.all l g).1 = .ok ∨ (W.all l g).1 = .failed
  | [], _, _ => .inl rfl
  | w :: l, g, h => by
    rw [W.all]
    unfold W.seq
    have hw := h w (by simp) g
    cases e : w g with
    | mk r g1 =>
      rw [e] at hw
      rcases hw with hw | hw
      · simp only at hw
        subst hw
        exact all_calm l g1 (fun x hx => h x (by simp [hx]))
      · simp only at hw
        subst hw
        exact .inr rfl

theorem writeMeta_calm (m : Meta) (g : Obj) : (writeMeta m g).1 = .ok ∨ (writeMeta m g).1 = .failed := by
  rw [writeMeta_all]
  apply all_calm
  intro w hw g
  obtain ⟨p, -, rfl⟩ := List.mem_map.1 hw
  exact putAttr_calm _ _ _

theorem step_global : Step kGlobal := ⟨by decide, by decide, by decide, by decide⟩

/-- The metadata of the file. -/
theorem sim_global {C : MapIO M} {cs o hs ws gm} (S : Sim C cs o hs ws gm) (m : Meta) :
    ∃ r o', writeGlobal m o = (r, o') ∧ r ≠ .crash ∧ Sim C cs o' hs ws (gm.or (some m)) ∧
      (gm = none → r = (writeMeta m .new).1) ∧ (gm ≠ none → r = .failed) := by
  obtain ⟨ls, hr, hn, hl, hg⟩ := S.root
  unfold writeGlobal
  rw [if_pos S.isOpen, hr]
  have hm := make_root step_global verAttrs ls
  cases gm with
  | some g =>
    rw [if_pos (by rw [hg]; rfl)] at hm
    have : (makeGroup [] kGlobal ⨾ inside [kGlobal] (writeMeta m)) (.group verAttrs ls) = (.failed, .group verAttrs ls) := by
      unfold W.seq; rw [hm]
    rw [this]
    refine ⟨_, _, rfl, by simp, ?_, by simp, by simp⟩
    rw [← hr]; exact S
  | none =>
    rw [Option.map_none] at hg
    rw [if_neg (by rw [hg]; simp)] at hm
    rw [seq_ok hm, inside_one kGlobal _ _ _ .new (named_last _ hg), set_last _ _ hg]
    refine ⟨_, _, rfl, ?_, ?_, by simp, by simp⟩
    · rcases writeMeta_calm m .new with h | h <;> rw [h] <;> simp
    · refine ⟨S.isOpen, S.parts, S.inv, _, rfl, ?_, ?_, ?_⟩
      · rw [List.map_append, List.nodup_append]
        refine ⟨hn, by simp, ?_⟩
        intro a ha b hb
        rw [List.map_singleton, List.mem_singleton] at hb
        obtain ⟨p, hp, rfl⟩ := List.mem_map.1 ha
        rw [hb]
        exact named_none.1 hg p hp
      · rw [List.filter_append, hl, List.filter_cons_of_neg (by simp)]; simp
      · rw [named_last _ hg]; rfl

/-- Why a write can fail. -/
def Reason (C : MapIO M) (all : List (Call M)) (w : Write M) : Prop :=
  w.layer = kMapping ∨ C.ident w.mapping w.mapping = false ∨
    (∃ m, C.ident m w.mapping = true ∧ C.ident w.mapping m = false) ∨
    ∃ w', Call.write w' ∈ all ∧ w'.part = w.part ∧ w'.layer = w.layer ∧ w'.isVec ≠ w.isVec

/-- A whole file. -/
theorem sim_run {C : MapIO M} {all : List (Call M)} {cs0 : List (Write M)} (h0 : ∀ w, w ∈ cs0 ↔ Call.write w ∈ all) :
    ∀ (cs : List (Call M)) (o : Out M) (hs : Homes M) (ws : List (Write M)) (gm : Option Meta),
    Sim C cs0 o hs ws gm → (∀ w ∈ ws, Call.write w ∈ all) → Session cs → (∀ c ∈ cs, c ∈ all) →
    (∀ w, Call.write w ∈ cs → Fits C w) →
    ∃ rs o' hs', Out.run C o cs = some (rs, o') ∧ Sim C cs0 o' hs' (ws ++ stored cs rs) (gm.or (globals cs)) ∧
      rs.length = cs.length ∧ (∀ w ∈ stored cs rs, w.layer ≠ kMapping) ∧
      ∀ (i : Nat) (w : Write M), cs[i]? = some (Call.write w) → rs[i]? = some Ret.ok ∨ (rs[i]? = some Ret.failed ∧ Reason C all w)
  | [], o, hs, ws, gm, S, _, _, _, _ => ⟨[], o, hs, rfl, by simpa [stored, globals] using S, rfl, by simp [stored], by simp⟩
  | c :: cs, o, hs, ws, gm, S, hws, hse, hal, hok => by
    have hse' : Session cs := fun x hx => hse x (by simp [hx])
    have hal' : ∀ x ∈ cs, x ∈ all := fun x hx => hal x (by simp [hx])
    have hok' : ∀ w, Call.write w ∈ cs → Fits C w := fun w hw => hok w (by simp [hw])
    rcases hse c (by simp) with ⟨w, rfl⟩ | ⟨m, rfl⟩
    · have hin : Call.write w ∈ all := hal _ (by simp)
      obtain ⟨hs1, r, o1, e, h⟩ := sim_write S w (hok w (by simp)).ok ((h0 w).2 hin)
      rcases h with ⟨rfl, S1, hnm⟩ | ⟨rfl, S1, hR⟩
      · obtain ⟨rs, o2, hs2, e2, S2, hlen, hmap, hres⟩ := sim_run h0 cs o1 hs1 _ gm S1 (by
          intro x hx
          rw [List.mem_append, List.mem_singleton] at hx
          rcases hx with hx | rfl
          · exact hws x hx
          · exact hin) hse' hal' hok'
        refine ⟨.ok :: rs, o2, hs2, ?_, ?_, by simp [hlen], by simpa [stored] using ⟨hnm, hmap⟩, ?_⟩
        · rw [Out.run]
          simp only [Out.step, e, e2, Option.map_some]
        · simpa [stored, globals] using S2
        · intro i x hx
          cases i with
          | zero => exact .inl rfl
          | succ i => exact hres i x (by simpa using hx)
      · obtain ⟨rs, o2, hs2, e2, S2, hlen, hmap, hres⟩ := sim_run h0 cs o1 hs1 _ gm S1 hws hse' hal' hok'
        refine ⟨.failed :: rs, o2, hs2, ?_, ?_, by simp [hlen], by simpa [stored] using hmap, ?_⟩
        · rw [Out.run]
          simp only [Out.step, e, e2, Option.map_some]
        · simpa [stored, globals] using S2
        · intro i x hx
          cases i with
          | zero =>
            right
            simp only [List.getElem?_cons_zero, Option.some.injEq, Call.write.injEq] at hx
            subst hx
            refine ⟨rfl, ?_⟩
            rcases hR with h | h | h | ⟨w', h1, h2⟩
            · exact .inl h
            · exact .inr (.inl h)
            · exact .inr (.inr (.inl h))
            · exact .inr (.inr (.inr ⟨w', hws w' h1, h2⟩))
          | succ i => exact hres i x (by simpa using hx)
    · obtain ⟨r, o1, e, hc, S1, -, -⟩ := sim_global S m
      obtain ⟨rs, o2, hs2, e2, S2, hlen, hmap, hres⟩ := sim_run h0 cs o1 hs _ _ S1 hws hse' hal' hok'
      have e1 : stored (Call.global m :: cs) (r :: rs) = stored cs rs := by cases r <;> rfl
      refine ⟨r :: rs, o2, hs2, ?_, ?_, by simp [hlen], by rw [e1]; exact hmap, ?_⟩
      · rw [Out.run]
        simp only [Out.step, e]
        cases r with
        | crash => exact absurd rfl hc
        | _ => simp only [e2, Option.map_some]
      · have e2 : (gm.or (some m)).or (globals cs) = gm.or (globals (Call.global m :: cs)) := by cases gm <;> rfl
        rw [e1, ← e2]; exact S2
      · intro i x hx
        cases i with
        | zero => simp at hx
        | succ i => exact hres i x (by simpa using hx)

/-! ## Reading -/

theorem perm_map {A B : Type} (f : A → B) {k l : List B} (h : k.Perm l) : ∀ hs : List A, k = hs.map f →
    ∃ hs' : List A, hs'.Perm hs ∧ l = hs'.map f := by
  induction h with
  | nil => intro hs e; exact ⟨hs, .refl _, e⟩
  | cons x _ ih =>
    intro hs e
    cases hs with
    | nil => simp at e
    | cons a t =>
      rw [List.map_cons, List.cons.injEq] at e
      obtain ⟨t', h1, h2⟩ := ih t e.2
      exact ⟨a :: t', h1.cons a, by rw [h2, e.1]; rfl⟩
  | swap x y l =>
    intro hs e
    match hs with
    | [] => simp at e
    | [a] => simp at e
    | a :: b :: t =>
      simp only [List.map_cons, List.cons.injEq] at e
      exact ⟨b :: a :: t, .swap a b t, by rw [e.1, e.2.1, e.2.2]; rfl⟩
  | trans _ _ ih1 ih2 =>
    intro hs e
    obtain ⟨h1, p1, e1⟩ := ih1 hs e
    obtain ⟨h2, p2, e2⟩ := ih2 h1 e1
    exact ⟨h2, p2.trans p1, e2⟩

theorem locate_abs {n l : Name} (hn : Step n) (hl : Step l) : locate [] (47 :: n ++ 47 :: l) = [n, l] := by
  have hc : cstr (47 :: n ++ 47 :: l) = 47 :: n ++ 47 :: l := by
    apply cstr_plain
    have h1 := hn.nul
    have h2 := hl.nul
    simp [h1, h2]
  have hs : steps (47 :: n ++ 47 :: l) = [n, l] := by
    unfold steps
    rw [hc]
    have : splitSlash (47 :: n ++ 47 :: l) = [] :: n :: [l] := by
      rw [List.cons_append, splitSlash, if_pos rfl, splitSlash_join n l hn.slash, splitSlash_plain l hl.slash]
    rw [this]
    simp [hn.ne, hn.dot, hl.ne, hl.dot]
  unfold locate
  rw [hc, hs]
  simp

theorem locate_rel {n l : Name} (hn : Step n) (hl : Step l) : locate [] (layerPath n l) = [n, l] := by
  have hc : cstr (n ++ 47 :: l) = n ++ 47 :: l := by
    apply cstr_plain
    have h1 := hn.nul
    have h2 := hl.nul
    simp [h1, h2]
  have hs : steps (n ++ 47 :: l) = [n, l] := by
    unfold steps
    rw [hc, splitSlash_join n l hn.slash, splitSlash_plain l hl.slash]
    simp [hn.ne, hn.dot, hl.ne, hl.dot]
  unfold locate layerPath
  rw [hc, hs]
  split <;> rfl

section
variable {C : MapIO M} {cs0 : List (Write M)} {o : Out M} {hs : Homes M} {ws : List (Write M)} {gm : Option Meta}

theorem home_known (S : Sim C cs0 o hs ws gm) (h : Home (Write M)) (hh : h ∈ hs) :
    h.mapping ∈ cs0 ∧ h.mapping.part = h.user := by
  obtain ⟨f, h1, h2, h3⟩ := S.inv.known h hh
  obtain ⟨w, hw, e⟩ := List.mem_map.1 h1
  have e' : tag w = f := by simpa using e
  have : w = h.mapping := by rw [← h3, ← e']; rfl
  subst this
  exact ⟨hw, by rw [← h2, ← e']; rfl⟩

theorem home_step (S : Sim C cs0 o hs ws gm) (K : ∀ w ∈ cs0, Fits C w) (h : Home (Write M)) (hh : h ∈ hs) :
    Step (intName h.user h.idx) := by
  obtain ⟨h1, h2⟩ := home_known S h hh
  have := (K _ h1).part
  rw [h2] at this
  exact step_int _ _ this.1 this.2

theorem root_named (S : Sim C cs0 o hs ws gm) (h : Home (Write M)) (hh : h ∈ hs) :
    named (intName h.user h.idx) o.root.links = some (partObj C h) := by
  obtain ⟨ls, hr, hn, hl, -⟩ := S.root
  rw [hr]
  exact home_named hn hl h hh

theorem open_part (S : Sim C cs0 o hs ws gm) (K : ∀ w ∈ cs0, Fits C w) (h : Home (Write M)) (hh : h ∈ hs) :
    openGroup o.root (intName h.user h.idx) = some (partObj C h) := by
  unfold openGroup
  rw [locate_plain (home_step S K h hh), List.nil_append]
  simp only [Obj.at, root_named S h hh]
  rfl

theorem open_child (S : Sim C cs0 o hs ws gm) (h : Home (Write M)) (hh : h ∈ hs)
    (s : Name) (l : Name) (hs' : locate [] s = [intName h.user h.idx, l]) (g : Obj)
    (hg : named l (partLinks C h) = some g) (hgr : g.isGroup = true) : openGroup o.root s = some g := by
  unfold openGroup
  rw [hs']
  have hg' : named l (partObj C h).links = some g := hg
  simp only [Obj.at, root_named S h hh, hg']
  simp [Option.filter, hgr]

theorem mapObj_group (w : Write M) (K : Fits C w) : (mapObj C w.mapping).isGroup = true ∧
    componentsOf (mapObj C w.mapping) = none := by
  obtain ⟨g, e, h1, h2⟩ := K.mapping
  unfold mapObj
  rw [e]
  refine ⟨h1, ?_⟩
  unfold componentsOf getStr
  rw [if_pos h1, h2]

theorem layerObj_eq (w : Write M) (K : Fits C w) : ∃ g', w.body (layerStart w) = (.ok, g') ∧ layerObj w = g' ∧
    g'.isGroup = true ∧ LayerKept (layerStart w) g' ∧ getInt kComponents g' = .ok (if w.isVec then 3 else 1) := by
  obtain ⟨g', e, h1, h2, h3⟩ := K.body _ (layerStart_fresh w)
  exact ⟨g', e, by rw [layerObj, layerWriter_new w K.info, e], h1, h2, h3⟩

theorem layerObj_components (w : Write M) (K : Fits C w) : componentsOf (layerObj w) = some (if w.isVec then 3 else 1) := by
  obtain ⟨g', -, e, h1, h2, h3⟩ := layerObj_eq w K
  rw [e]
  unfold componentsOf
  have hc : getStr kClassType g' = .ok kLayerText := by
    unfold getStr
    rw [h2.1 kClassType (.str kLayerText) (by rfl)]
    rfl
  rw [if_pos h1, hc]
  simp only [if_true, h3]

theorem home_fits (S : Sim C cs0 o hs ws gm) (K : ∀ w ∈ cs0, Fits C w) (hws : ∀ w ∈ ws, w ∈ cs0) (h : Home (Write M))
    (hh : h ∈ hs) (f : Files.Write (Write M)) (hf : f ∈ h.writes) : Fits C f.mapping :=
  K _ (hws _ (home_tag S h hh f hf).1)

theorem links_nodup (S : Sim C cs0 o hs ws gm) (h : Home (Write M)) (hh : h ∈ hs) :
    (h.writes.map fun f => f.layer).Nodup := S.inv.nodup h hh

/-- No layer is named "mapping". -/
theorem not_mapping (S : Sim C cs0 o hs ws gm) (hmap : ∀ w ∈ ws, w.layer ≠ kMapping) (h : Home (Write M))
    (hh : h ∈ hs) (f : Files.Write (Write M)) (hf : f ∈ h.writes) : f.layer ≠ kMapping := by
  obtain ⟨h1, h2⟩ := home_tag S h hh f hf
  have := hmap _ h1
  rw [h2]; exact this

theorem layer_named (S : Sim C cs0 o hs ws gm) (hmap : ∀ w ∈ ws, w.layer ≠ kMapping) (h : Home (Write M))
    (hh : h ∈ hs) (f : Files.Write (Write M)) (hf : f ∈ h.writes) :
    named f.layer (partLinks C h) = some (layerObj f.mapping) := by
  rw [partLinks, named, if_neg (Ne.symm (not_mapping S hmap h hh f hf))]
  apply mem_named
  · rw [List.map_map]; exact S.inv.nodup h hh
  · exact List.mem_map.2 ⟨f, hf, rfl⟩

/-- The layers found are those written. -/
theorem layers_found (S : Sim C cs0 o hs ws gm) (K : ∀ w ∈ cs0, Fits C w) (hws : ∀ w ∈ ws, w ∈ cs0) (ord : Order)
    (V : Visits ord) (h : Home (Write M)) (hh : h ∈ hs) (v : Bool) :
    (layersWith ord (if v then 3 else 1) (partObj C h)).Perm (layersIn v h) := by
  unfold layersWith
  refine (((V.links (partLinks C h)).filter _).map _).trans ?_
  rw [partLinks, List.filter_cons_of_neg]
  · rw [List.filter_map, List.map_map]
    unfold layersIn
    have : h.writes.filter ((fun p : Name × Obj => decide (componentsOf p.2 = some (if v then 3 else 1))) ∘
        fun f => (f.layer, layerObj f.mapping)) = h.writes.filter fun f => f.mapping.isVec = v := by
      apply List.filter_congr
      intro f hf
      simp only [Function.comp_def, layerObj_components _ (home_fits S K hws h hh f hf)]
      cases f.mapping.isVec <;> cases v <;> simp
    rw [this]
    exact .refl _
  · rw [(mapObj_group _ (K _ (home_known S h hh).1)).2]; simp

theorem names_found (S : Sim C cs0 o hs ws gm) (ord : Order) (V : Visits ord) : ∃ hs' : Homes M, hs'.Perm hs ∧
    partitionNames ord o.root = hs'.map fun h => intName h.user h.idx := by
  obtain ⟨ls, hr, hn, hl, hg⟩ := S.root
  have h1 : ((ord.links ls).filter fun p => decide (p.2.isGroup ∧ p.1 ≠ kMembership ∧ p.1 ≠ kGlobal)).Perm
      (hs.map (linkOf C)) := by
    refine ((V.links ls).filter _).trans ?_
    rw [← hl]
    have : ls.filter (fun p => decide (p.2.isGroup ∧ p.1 ≠ kMembership ∧ p.1 ≠ kGlobal)) =
        ls.filter fun p => p.1 ≠ kGlobal := by
      apply List.filter_congr
      intro p hp
      by_cases hpg : p.1 = kGlobal
      · simp [hpg]
      · have hin : p ∈ hs.map (linkOf C) := by rw [← hl, List.mem_filter]; exact ⟨hp, by simpa using hpg⟩
        obtain ⟨h, -, rfl⟩ := List.mem_map.1 hin
        have hm : (linkOf C h).1 ≠ kMembership := by
          intro e
          have h46 : (46 : UInt8) ∈ kMembership := by rw [← e]; exact Files.intName_dot _ _
          revert h46; decide
        have hgr : (linkOf C h).2.isGroup = true := rfl
        simp [hm, hpg, hgr]
    rw [this]
  obtain ⟨hs', p, e⟩ := perm_map (linkOf C) h1.symm hs rfl
  refine ⟨hs', p, ?_⟩
  unfold partitionNames
  rw [hr]
  show List.map _ (List.filter _ (ord.links ls)) = _
  rw [e, List.map_map]; rfl

def inPart (C : MapIO M) (ord : Order) (back : M → L) (h : Home (Write M)) : InPart L :=
  ⟨intName h.user h.idx, back h.mapping.mapping, layersWith ord 1 (partObj C h), layersWith ord 3 (partObj C h)⟩

def bare (back : M → L) (h : Home (Write M)) : InPart L := ⟨intName h.user h.idx, back h.mapping.mapping, [], []⟩

theorem mappings_back (S : Sim C cs0 o hs ws gm) (K : ∀ w ∈ cs0, Fits C w) (readMap : Obj → Res L) (back : M → L)
    (R : ∀ w ∈ cs0, readMap (C.write w.mapping .new).2 = .ok (back w.mapping)) : ∀ gs : Homes M, (∀ h ∈ gs, h ∈ hs) →
    readMappings readMap o.root (gs.map fun h => intName h.user h.idx) = .ok (gs.map (bare back))
  | [], _ => rfl
  | h :: gs, hg => by
    have hh := hg h (by simp)
    obtain ⟨k1, k2⟩ := home_known S h hh
    have hop := open_child S h hh (47 :: intName h.user h.idx ++ 47 :: kMapping) kMapping
      (locate_abs (home_step S K h hh) step_mapping) (mapObj C h.mapping.mapping) (by simp [partLinks, named])
      (mapObj_group _ (K _ k1)).1
    rw [List.map_cons, readMappings, hop]
    simp only
    have hr : readMap (mapObj C h.mapping.mapping) = .ok (back h.mapping.mapping) := R _ k1
    rw [hr]
    simp only [Res.bind]
    rw [mappings_back S K readMap back R gs (fun x hx => hg x (by simp [hx]))]
    rfl

theorem give_split (n : Name) (s v : List Name) (p : InPart L) (hp : p.name = n) (b : List (InPart L)) :
    ∀ a : List (InPart L), (∀ q ∈ a, q.name ≠ n) →
    giveLayers n s v (a ++ p :: b) = a ++ { p with scalar := p.scalar ++ s, vector := p.vector ++ v } :: b
  | [], _ => by rw [List.nil_append, giveLayers, if_pos hp]; rfl
  | q :: a, h => by
    rw [List.cons_append, giveLayers, if_neg (h q (by simp)), give_split n s v p hp b a (fun x hx => h x (by simp [hx]))]
    rfl

theorem layers_back (S : Sim C cs0 o hs ws gm) (K : ∀ w ∈ cs0, Fits C w) (ord : Order) (back : M → L) :
    ∀ (rest done : Homes M), (∀ h ∈ rest, h ∈ hs) → ((done ++ rest).map fun h => intName h.user h.idx).Nodup →
    readAllLayers ord o.root (rest.map fun h => intName h.user h.idx) (done.map (inPart C ord back) ++ rest.map (bare back)) =
      (done ++ rest).map (inPart C ord back)
  | [], done, _, _ => by simp [readAllLayers]
  | h :: rest, done, hr, hn => by
    have hh := hr h (by simp)
    rw [List.map_cons, readAllLayers, open_part S K h hh]
    simp only
    rw [List.map_cons, give_split (intName h.user h.idx) _ _ (bare back h) rfl]
    · have e : done.map (inPart C ord back) ++ { bare back h with
          scalar := (bare back h).scalar ++ layersWith ord 1 (partObj C h),
          vector := (bare back h).vector ++ layersWith ord 3 (partObj C h) } :: rest.map (bare back) =
          (done ++ [h]).map (inPart C ord back) ++ rest.map (bare back) := by
        simp [inPart, bare]
      rw [e, layers_back S K ord back rest (done ++ [h]) (fun x hx => hr x (by simp [hx])) (by simpa using hn)]
      simp
    · intro q hq
      obtain ⟨k, hk, rfl⟩ := List.mem_map.1 hq
      rw [List.map_append, List.nodup_append] at hn
      exact hn.2.2 _ (List.mem_map.2 ⟨k, hk, rfl⟩) _ (by simp)

theorem names_nodup (S : Sim C cs0 o hs ws gm) {hs' : Homes M} (hp : hs'.Perm hs) :
    (hs'.map fun h => intName h.user h.idx).Nodup := by
  refine (hp.map _).nodup_iff.2 ?_
  have := S.inv.uniq
  have e : (hs.map fun h => intName h.user h.idx) = (hs.map Home.key).map fun k => intName k.1 k.2 := by
    rw [List.map_map]; rfl
  rw [e]
  unfold List.Nodup at this ⊢
  rw [List.pairwise_map]
  refine this.imp ?_
  intro a b hab e
  obtain ⟨h1, h2⟩ := Files.intName_inj e
  exact hab (Prod.ext h1 h2)

theorem root_version (S : Sim C cs0 o hs ws gm) : versionOk o.root = true := by
  obtain ⟨ls, hr, -⟩ := S.root
  rw [hr]
  have : getInts 3 kVersionNumber (.group verAttrs ls) = .ok [1, 7, 3] := by
    unfold getInts
    rw [show named kVersionNumber (Obj.group verAttrs ls).attrs = some (.ints [1, 7, 3]) by
      show named kVersionNumber verAttrs = _; decide]
    rfl
  unfold versionOk
  rw [this]
  rfl

theorem open_global (S : Sim C cs0 o hs ws gm) (hg : ∀ m, gm = some m → NamesFit m) :
    openGroup o.root kGlobal = gm.map fun m => .group (metaAttrs m) [] := by
  obtain ⟨ls, hr, hn, hl, hgl⟩ := S.root
  unfold openGroup
  rw [locate_plain step_global, List.nil_append, hr]
  simp only [Obj.at, Obj.links, hgl]
  cases gm with
  | none => rfl
  | some m =>
    have h := hg m rfl
    simp only [Option.map_some, globObj, writeMeta_new m h.order h.plain h.kind]
    rfl

theorem open_back (S : Sim C cs0 o hs ws gm) (K : ∀ w ∈ cs0, Fits C w) (hg : ∀ m, gm = some m → NamesFit m) (ord : Order)
    (V : Visits ord) (readMap : Obj → Res L) (back : M → L)
    (R : ∀ w ∈ cs0, readMap (C.write w.mapping .new).2 = .ok (back w.mapping)) :
    ∃ (hs' : Homes M) (names : List Name) (info : Meta), hs'.Perm hs ∧
      In.openFile ord readMap o.root In.new = some (true, ⟨names, hs'.map (inPart C ord back), info, some o.root⟩) ∧
      (gm = none → info = .empty) ∧ (∀ m, gm = some m → Over m .empty info) := by
  obtain ⟨hs', hp, hnames⟩ := names_found S ord V
  unfold In.openFile
  rw [if_pos (root_version S), open_global S hg]
  have hm := mappings_back S K readMap back R hs' (fun h hh => hp.mem_iff.1 hh)
  have hl := layers_back S K ord back hs' [] (fun h hh => hp.mem_iff.1 hh) (by simpa using names_nodup S hp)
  simp only [List.map_nil, List.nil_append] at hl
  simp only [In.new, List.nil_append, hnames, hm, hl]
  refine ⟨hs', _, _, hp, rfl, ?_, ?_⟩
  · rintro rfl; rfl
  · rintro m rfl n k
    have h := hg m rfl
    exact readMeta_back ord V.attrs m .empty h.order h.kind [] n k

theorem find_in_map (ord : Order) (back : M → L) : ∀ (hs : Homes M), (hs.map fun h => intName h.user h.idx).Nodup → ∀ h ∈ hs,
    findIn (intName h.user h.idx) (hs.map (inPart C ord back)) = some (inPart C ord back h)
  | [], _, h, hh => by simp at hh
  | g :: gs, hn, h, hh => by
    rw [List.map_cons, List.nodup_cons] at hn
    rw [List.map_cons, findIn]
    rw [List.mem_cons] at hh
    rcases hh with rfl | hh
    · exact if_pos rfl
    · have hne : ¬ (inPart C ord back g).name = intName h.user h.idx := by
        intro e
        exact hn.1 (List.mem_map.2 ⟨h, hh, e.symm⟩)
      rw [if_neg hne]
      exact find_in_map ord back gs hn.2 h hh

theorem layersOf_map (f : Home (Write M) → List Name) : ∀ (hs : Homes M), (hs.map fun h => intName h.user h.idx).Nodup →
    ∀ h ∈ hs, Listing.layersOf (hs.map fun h => (intName h.user h.idx, f h)) (intName h.user h.idx) = some (f h)
  | [], _, h, hh => by simp at hh
  | g :: gs, hn, h, hh => by
    rw [List.map_cons, List.nodup_cons] at hn
    rw [List.map_cons, Listing.layersOf]
    rw [List.mem_cons] at hh
    rcases hh with rfl | hh
    · rw [if_pos rfl]
    · have hne : ¬ intName g.user g.idx = intName h.user h.idx := by
        intro e
        exact hn.1 (List.mem_map.2 ⟨h, hh, e.symm⟩)
      rw [if_neg hne]
      exact layersOf_map f gs hn.2 h hh

/-- The metadata of a field after reading. -/
def infoBack [FieldClass F] (ord : Order) (w : Write M) (f : F) : Meta :=
  readMeta ord (.group (metaAttrs w.info) []) (FieldClass.start f)

theorem infoBack_over [FieldClass F] (ord : Order) (V : Visits ord) (w : Write M) (h : NamesFit w.info) (f : F) :
    Over w.info (FieldClass.start f) (infoBack ord w f) := fun n k =>
  readMeta_back ord V.attrs w.info _ h.order h.kind [] n k

def oneBack [FieldClass F] (ord : Order) (back : M → L) (val : Name → Write M → Option F) (h : Home (Write M))
    (w : Write M) : Option (Loaded L F) :=
  (val (layerPath (intName h.user h.idx) w.layer) w).map fun f =>
    ⟨h.user, w.layer, some (back h.mapping.mapping), (FieldClass.mapped f (infoBack ord w f)).2,
      (FieldClass.mapped f (infoBack ord w f)).1⟩

/-- What is made of one layer. -/
def resBack [FieldClass F] (ord : Order) (back : M → L) (readField : Name → Name → Obj → Res F) (h : Home (Write M))
    (w : Write M) : Res (Loaded L F) :=
  (readField (layerPath (intName h.user h.idx) w.layer) w.cls (w.body (layerStart w)).2).bind fun f =>
    .ok ⟨h.user, w.layer, some (back h.mapping.mapping), (FieldClass.mapped f (infoBack ord w f)).2,
      (FieldClass.mapped f (infoBack ord w f)).1⟩

theorem read_one [FieldClass F] (S : Sim C cs0 o hs ws gm) (K : ∀ w ∈ cs0, Fits C w) (hws : ∀ w ∈ ws, w ∈ cs0)
    (hmap : ∀ w ∈ ws, w.layer ≠ kMapping) (ord : Order) (V : Visits ord) (back : M → L) (names : List Name) (info : Meta)
    {hs' : Homes M} (hp : hs'.Perm hs) (readField : Name → Name → Obj → Res F)
    (h : Home (Write M)) (hh : h ∈ hs') (f : Files.Write (Write M)) (hf : f ∈ h.writes) :
    In.readLayer ord ⟨names, hs'.map (inPart C ord back), info, some o.root⟩ readField f.mapping.isVec
        (intName h.user h.idx) f.layer = resBack ord back readField h f.mapping := by
  have hh0 : h ∈ hs := hp.mem_iff.1 hh
  have Kf := home_fits S K hws h hh0 f hf
  obtain ⟨t1, t2⟩ := home_tag S h hh0 f hf
  have hlay : f.layer = f.mapping.layer := by rw [t2]; rfl
  obtain ⟨g', e1, e2, e3, e4, e5⟩ := layerObj_eq f.mapping Kf
  unfold In.readLayer
  simp only [find_in_map ord back hs' (names_nodup S hp) h hh]
  have hmem : f.layer ∈ (if f.mapping.isVec = true then (inPart C ord back h).vector else (inPart C ord back h).scalar) := by
    have hin : f.layer ∈ layersIn f.mapping.isVec h := by
      unfold layersIn
      exact List.mem_map.2 ⟨f, List.mem_filter.2 ⟨hf, by simp⟩, rfl⟩
    have := (layers_found S K hws ord V h hh0 f.mapping.isVec).mem_iff.2 hin
    cases hv : f.mapping.isVec <;> rw [hv] at this <;> exact this
  rw [if_pos hmem]
  have hst : Step f.layer := by rw [hlay]; exact Kf.layer.step
  have hop := open_child S h hh0 (layerPath (intName h.user h.idx) f.layer) f.layer
    (locate_rel (home_step S K h hh0) hst) (layerObj f.mapping) (layer_named S hmap h hh0 f hf) (by rw [e2]; exact e3)
  rw [Option.bind_some, hop]
  simp only
  have hcls : getStr kClassName (layerObj f.mapping) = .ok f.mapping.cls := by
    unfold getStr
    rw [e2, e4.1 kClassName (.str f.mapping.cls) (by
      show named kClassName [(kClassType, Attr.str kLayerText), (kClassName, .str f.mapping.cls)] = _
      rw [named, if_neg (by decide), named, if_pos rfl])]
    simp only [cstr_plain _ Kf.cls]
  rw [hcls]
  simp only [Res.bind]
  rw [e2]
  have hmd : named kMetadata g'.links = some (.group (metaAttrs f.mapping.info) []) := e4.2 kMetadata _ (by
    show named kMetadata [(kMetadata, _)] = _
    rw [named, if_pos rfl])
  simp only [hmd, Files.remove_intName]
  unfold resBack
  rw [← hlay, e1]
  rfl

theorem filter_perm_eq {l : Name} {a b : List Name} (h : a.Perm b) :
    a.filter (fun x => decide (x = l)) = b.filter fun x => decide (x = l) := by
  have : ∀ c : List Name, c.filter (fun x => decide (x = l)) = List.replicate (c.count l) l := by
    intro c
    rw [← List.filter_beq]
    apply List.filter_congr
    intro x _
    rw [beq_eq_decide]
  rw [this, this, h.count_eq]

theorem read_home' [FieldClass F] (S : Sim C cs0 o hs ws gm) (K : ∀ w ∈ cs0, Fits C w) (hws : ∀ w ∈ ws, w ∈ cs0)
    (hmap : ∀ w ∈ ws, w.layer ≠ kMapping) (ord : Order) (V : Visits ord) (back : M → L) (names : List Name) (info : Meta)
    {hs' : Homes M} (hp : hs'.Perm hs) (readField : Name → Name → Obj → Res F)
    (h : Home (Write M)) (hh : h ∈ hs') (v : Bool) (l : Name) :
    ((((In.listing ⟨names, hs'.map (inPart C ord back), info, some o.root⟩ v).layersOf (intName h.user h.idx)).getD []).filter
      fun x => decide (x = l)).map (fun x => In.readLayer ord ⟨names, hs'.map (inPart C ord back), info, some o.root⟩
        readField v (intName h.user h.idx) x) =
    (h.writes.filter fun f => decide (f.mapping.isVec = v ∧ f.layer = l)).map fun f =>
      resBack ord back readField h f.mapping := by
  have hh0 : h ∈ hs := hp.mem_iff.1 hh
  have e : In.listing (⟨names, hs'.map (inPart C ord back), info, some o.root⟩ : In L) v =
      hs'.map fun h => (intName h.user h.idx, layersWith ord (if v then 3 else 1) (partObj C h)) := by
    unfold In.listing
    rw [List.map_map]
    apply List.map_congr_left
    intro k _
    cases v <;> rfl
  rw [e, layersOf_map _ hs' (names_nodup S hp) h hh, Option.getD_some,
    filter_perm_eq (layers_found S K hws ord V h hh0 v), layersIn, List.filter_map, List.map_map, List.filter_filter]
  have e2 : (h.writes.filter fun f => ((fun x => decide (x = l)) ∘ fun f : Files.Write (Write M) => f.layer) f &&
      decide (f.mapping.isVec = v)) = h.writes.filter fun f => decide (f.mapping.isVec = v ∧ f.layer = l) := by
    apply List.filter_congr
    intro f _
    by_cases e1 : f.mapping.isVec = v <;> by_cases e2 : f.layer = l <;> simp [e1, e2]
  rw [e2]
  apply List.map_congr_left
  intro f hf
  rw [List.mem_filter] at hf
  obtain ⟨hf, h2⟩ := hf
  have h2 := of_decide_eq_true h2
  have := read_one S K hws hmap ord V back names info hp readField h hh f hf
  rw [← this, h2.1]
  rfl

/-- The layers of a name, with their partitions. -/
def picked (hs' : Homes M) (u l : Name) (v : Bool) : List (Home (Write M) × Files.Write (Write M)) :=
  (ofUser u hs').flatMap fun h => (h.writes.filter fun f => decide (f.mapping.isVec = v ∧ f.layer = l)).map fun f => (h, f)

theorem read_any [FieldClass F] (S : Sim C cs0 o hs ws gm) (K : ∀ w ∈ cs0, Fits C w) (hws : ∀ w ∈ ws, w ∈ cs0)
    (hmap : ∀ w ∈ ws, w.layer ≠ kMapping) (ord : Order) (V : Visits ord) (back : M → L) (names : List Name) (info : Meta)
    {hs' : Homes M} (hp : hs'.Perm hs) (readField : Name → Name → Obj → Res F) (v : Bool) (u l : Name) (hu : u ≠ []) (hl : l ≠ []) :
    In.readLayers ord ⟨names, hs'.map (inPart C ord back), info, some o.root⟩ readField v u l =
      collect ((picked hs' u l v).map fun q => resBack ord back readField q.1 q.2.mapping) := by
  unfold In.readLayers
  rw [if_neg (by simp [hu, hl])]
  congr 1
  rw [List.map_map, List.flatMap_map]
  unfold picked
  rw [List.map_flatMap, ofUser]
  have key : ∀ gs : Homes M, (∀ h ∈ gs, h ∈ hs') →
      (gs.flatMap fun h => if removeUniqueId (inPart C ord back h).name = u then
        ((((In.listing ⟨names, hs'.map (inPart C ord back), info, some o.root⟩ v).layersOf
          (inPart C ord back h).name).getD []).filter fun x => decide (x = l)).map fun x =>
            In.readLayer ord ⟨names, hs'.map (inPart C ord back), info, some o.root⟩ readField v
              (inPart C ord back h).name x else []) =
      ((gs.filter fun h => h.user = u).flatMap fun h =>
        ((h.writes.filter fun f => decide (f.mapping.isVec = v ∧ f.layer = l)).map fun f => (h, f)).map
          fun q : Home (Write M) × Files.Write (Write M) =>
            resBack ord back readField q.1 q.2.mapping) := by
    intro gs
    induction gs with
    | nil => intro _; rfl
    | cons h gs ih =>
      intro hg
      rw [List.flatMap_cons, ih (fun x hx => hg x (by simp [hx]))]
      have hrm : removeUniqueId (inPart C ord back h).name = h.user := Files.remove_intName _ _
      rw [hrm]
      by_cases eu : h.user = u
      · rw [if_pos eu, List.filter_cons, if_pos (by simpa using eu), List.flatMap_cons]
        have := read_home' S K hws hmap ord V back names info hp readField h (hg h (by simp)) v l
        have e : (inPart C ord back h).name = intName h.user h.idx := rfl
        rw [e, this, List.map_map]
        rfl
      · rw [if_neg eu, List.filter_cons, if_neg (by simpa using eu), List.nil_append]
  exact key hs' (fun _ h => h)

theorem picked_mem {hs' : Homes M} {u l : Name} {v : Bool} {q} (hq : q ∈ picked hs' u l v) :
    q.1 ∈ hs' ∧ q.1.user = u ∧ q.2 ∈ q.1.writes ∧ q.2.mapping.isVec = v ∧ q.2.layer = l := by
  simp only [picked, List.mem_flatMap, List.mem_map, List.mem_filter, decide_eq_true_eq] at hq
  obtain ⟨h, hh, f, ⟨hf, h2⟩, rfl⟩ := hq
  obtain ⟨hh, hu⟩ := Files.mem_ofUser.1 hh
  exact ⟨hh, hu, hf, h2⟩

theorem read_picked [FieldClass F] (S : Sim C cs0 o hs ws gm) (K : ∀ w ∈ cs0, Fits C w) (hws : ∀ w ∈ ws, w ∈ cs0)
    (hmap : ∀ w ∈ ws, w.layer ≠ kMapping) (ord : Order) (V : Visits ord) (back : M → L) (names : List Name) (info : Meta)
    {hs' : Homes M} (hp : hs'.Perm hs) (readField : Name → Name → Obj → Res F) (val : Name → Write M → Option F)
    (B : ∀ path w g, w ∈ cs0 → FreshLayer g → readField path w.cls (w.body g).2 =
      match val path w with | some f => .ok f | none => .null) (v : Bool) (u l : Name) (hu : u ≠ []) (hl : l ≠ []) :
    In.readLayers ord ⟨names, hs'.map (inPart C ord back), info, some o.root⟩ readField v u l =
      .ok ((picked hs' u l v).filterMap fun q => oneBack ord back val q.1 q.2.mapping) := by
  rw [read_any S K hws hmap ord V back names info hp readField v u l hu hl]
  apply Files.collect_ok
  intro q hq
  obtain ⟨a, -, c, -, -⟩ := picked_mem hq
  have hw := hws _ (home_tag S q.1 (hp.mem_iff.1 a) q.2 c).1
  unfold resBack oneBack
  rw [B _ _ _ hw (layerStart_fresh _)]
  cases val (layerPath (intName q.1.user q.1.idx) q.2.mapping.layer) q.2.mapping <;> rfl

/-- They are the layers written under the name. -/
theorem picked_perm (S : Sim C cs0 o hs ws gm) {hs' : Homes M} (hp : hs'.Perm hs) (u l : Name) (v : Bool) :
    ((picked hs' u l v).map (·.2.mapping)).Perm (ws.filter fun w => w.part = u ∧ w.layer = l ∧ w.isVec = v) := by
  have key : ∀ gs : Homes M, (∀ h ∈ gs, h ∈ hs) → (picked gs u l v).map (·.2.mapping) =
      ((gs.flatMap (·.writes)).map (·.mapping)).filter fun w => w.part = u ∧ w.layer = l ∧ w.isVec = v := by
    intro gs
    induction gs with
    | nil => intro _; rfl
    | cons h gs ih =>
      intro hg
      have hh := hg h (by simp)
      have ih' := ih (fun x hx => hg x (by simp [hx]))
      rw [List.flatMap_cons, List.map_append, List.filter_append, ← ih']
      have e0 : ∀ f ∈ h.writes, f.part = h.user ∧ f.part = f.mapping.part ∧ f.layer = f.mapping.layer := by
        intro f hf
        refine ⟨(S.inv.fits h hh f hf).1, ?_, ?_⟩
        · rw [(home_tag S h hh f hf).2]; rfl
        · rw [(home_tag S h hh f hf).2]; rfl
      by_cases eu : h.user = u
      · have : ofUser u (h :: gs) = h :: ofUser u gs := by simp [ofUser, eu]
        unfold picked
        rw [this, List.flatMap_cons, List.map_append, List.map_map]
        congr 1
        rw [List.filter_map]
        show List.map (fun f : Files.Write (Write M) => f.mapping) _ = _
        congr 1
        apply List.filter_congr
        intro f hf
        obtain ⟨a, b, c⟩ := e0 f hf
        simp only [Function.comp_def, ← b, ← c, a, eu, true_and]
        by_cases x : f.layer = l <;> by_cases y : f.mapping.isVec = v <;> simp [x, y]
      · have : ofUser u (h :: gs) = ofUser u gs := by simp [ofUser, eu]
        unfold picked
        rw [this]
        have e2 : (h.writes.map (·.mapping)).filter (fun w => decide (w.part = u ∧ w.layer = l ∧ w.isVec = v)) = [] := by
          rw [List.filter_eq_nil_iff]
          intro w hw
          obtain ⟨f, hf, rfl⟩ := List.mem_map.1 hw
          obtain ⟨a, b, c⟩ := e0 f hf
          rw [← b, a]; simp [eu]
        rw [e2]; rfl
  rw [key hs' (fun h hh => hp.mem_iff.1 hh)]
  refine List.Perm.filter _ ?_
  have h1 : (hs'.flatMap (·.writes)).Perm (hs.flatMap (·.writes)) := hp.flatMap_right _
  have h2 := (h1.trans S.inv.perm).map fun f => f.mapping
  rw [List.map_map] at h2
  have : ws.map ((fun f : Files.Write (Write M) => f.mapping) ∘ tag) = ws := by
    rw [show ((fun f : Files.Write (Write M) => f.mapping) ∘ tag) = id from rfl, List.map_id]
  rw [this] at h2
  exact h2

/-- Each from another partition. -/
theorem picked_nodup (S : Sim C cs0 o hs ws gm) {hs' : Homes M} (hp : hs'.Perm hs) (u l : Name) (v : Bool) :
    ((picked hs' u l v).map (·.1.idx)).Nodup := by
  have hkey : (hs'.map Home.key).Nodup := (hp.map _).nodup_iff.2 S.inv.uniq
  have hidx : (ofUser u hs').Pairwise fun a b => a.idx ≠ b.idx := by
    have h1 : hs'.Pairwise fun a b => a.key ≠ b.key := List.pairwise_map.1 hkey
    have h2 : (ofUser u hs').Pairwise fun a b => a.key ≠ b.key := h1.filter _
    refine h2.imp_of_mem ?_
    intro a b ha hb hab e
    have h3 := (Files.mem_ofUser.1 ha).2
    have h4 := (Files.mem_ofUser.1 hb).2
    exact hab (by rw [Home.key, Home.key, h3, h4, e])
  have hnd : ∀ h ∈ ofUser u hs', (h.writes.map (·.layer)).Nodup := fun h hh =>
    S.inv.nodup h (hp.mem_iff.1 (Files.mem_ofUser.1 hh).1)
  unfold List.Nodup picked
  rw [List.pairwise_map]
  generalize ofUser u hs' = gs at hidx hnd
  induction gs with
  | nil => simp
  | cons h gs ih =>
    rw [List.pairwise_cons] at hidx
    rw [List.flatMap_cons, List.pairwise_append]
    refine ⟨?_, ih hidx.2 (fun x hx => hnd x (by simp [hx])), ?_⟩
    · rw [List.pairwise_map]
      have h1 : h.writes.Pairwise fun a b => a.layer ≠ b.layer := List.pairwise_map.1 (hnd h (by simp))
      have h2 := h1.filter fun f => decide (f.mapping.isVec = v ∧ f.layer = l)
      refine h2.imp_of_mem ?_
      intro a b ha hb hab
      have a1 := (of_decide_eq_true (List.mem_filter.1 ha).2).2
      have b1 := (of_decide_eq_true (List.mem_filter.1 hb).2).2
      exact absurd (a1.trans b1.symm) hab
    · intro a ha b hb
      obtain ⟨f, -, rfl⟩ := List.mem_map.1 ha
      obtain ⟨g, hg, hb'⟩ := List.mem_flatMap.1 hb
      obtain ⟨f', -, rfl⟩ := List.mem_map.1 hb'
      exact hidx.1 g hg

end

end Hdf5
end F3D
