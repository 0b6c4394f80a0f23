import Verif.Spec.LazyFile
import Verif.Props.FieldIO
import Verif.Props.DynField

/-!
# Blocks loaded from Ogawa files: proofs
-/

namespace F3D.LazyFile
open F3D Ogawa Og FieldIO Dyn BlockThreads
open _root_.F3D.Props (IntactLayer UnlimitedRead mapOf C39_every_block_once plainName groupKids firstOf nameOf)

theorem bind_inv {β γ : Type} {r : Res β} {f : β → Res γ} {c : γ} (h : r.bind f = .ok c) :
    ∃ b, r = .ok b ∧ f b = .ok c := by
  cases r <;> simp [Res.bind] at h
  exact ⟨_, rfl, h⟩

variable {α : Type}

/-- Everything that an unlimited read of a layer found. -/
structure Found (e : Elem α) (z : Zlib) (zero dflt : α) (kids : List Tree) (g : Sparse α) (f : Sparse α)
    (alloc : List Bool) (empty : List α) (c ob nb : List UInt8) (threads : Nat) (sched : List Nat) : Prop where
  blank : f = ((Sparse.empty zero).setSize zero g.extents g.dw).setBlockOrder zero g.order
  same : g = { f with blocks := g.blocks }
  order : attr .uint8 kBlockOrder kids = .ok ob
  order' : unle ob = g.order
  occ : attr .uint32 kOccupied kids = .ok nb
  lens : alloc.length = empty.length
  le : alloc.length ≤ f.blocks.length
  lazy : readLayer e zero dflt kids = .ok ({ f with blocks := setupLazy alloc empty f.blocks }, unle nb)
  data : 0 < unle nb → ∃ d, dataset (if unle c = 0 then .dataset else .compressed) e.type kData kids = .ok d ∧
    numElements d = unle nb ∧
    typeOf (if unle c = 0 then .dataset else .compressed) kData kids = some (some (le32 e.type.code)) ∧
    readBlocks e z (numVoxels g.order) (decide (unle c ≠ 0)) d alloc threads sched
      (setupRead (numVoxels g.order) alloc empty f.blocks) = .ok g.blocks
  none : ¬ 0 < unle nb → g.blocks = setupRead (numVoxels g.order) alloc empty f.blocks

theorem decAll_length (e : Elem α) (n : Nat) (bs : List UInt8) : (e.decAll n bs).length = n := by
  induction n generalizing bs with
  | zero => rfl
  | succ n ih => simp [Elem.decAll, ih]

theorem fetchArray_length {β : Type} {e : Elem β} {buf : List β} {d : List Tree} {r : List β}
    (h : fetchArray e buf d = .ok r) : r.length = buf.length := by
  unfold fetchArray at h
  split at h
  · cases h; rfl
  · unfold Elem.overlay at h
    split at h
    · simp at h
    · rename_i h'
      simp only [Res.ok.injEq] at h
      subst h
      split at h'
      · simp only [Option.some.injEq] at h'
        subst h'
        exact decAll_length _ _ _
      · simp at h'

theorem found (e : Elem α) (z : Zlib) (zero dflt : α) (kids : List Tree) (g : Sparse α) (threads : Nat) (sched : List Nat)
    (h : readSparse e z zero dflt threads sched kids = .ok g)
    (c : List UInt8) (hc : attr .uint8 kCompressed kids = .ok c) :
    ∃ f alloc empty ob nb, Found e z zero dflt kids g f alloc empty c ob nb threads sched := by
  unfold readSparse at h
  obtain ⟨w, hw, h⟩ := bind_inv h
  obtain ⟨co, hco, h⟩ := bind_inv h
  obtain ⟨ob, hob, h⟩ := bind_inv h
  obtain ⟨n, hn, h⟩ := bind_inv h
  obtain ⟨r, hr, h⟩ := bind_inv h
  simp only at h
  split at h
  · simp at h
  rename_i hres
  obtain ⟨nb, hnb, h⟩ := bind_inv h
  rw [hc] at h
  simp only [Res.bind] at h
  cases ht : typeOf (if unle c = 0 then .dataset else .compressed) kData kids with
  | none => rw [ht] at h; simp at h
  | some t =>
    rw [ht] at h
    simp only at h
    by_cases htt : ¬ (t = some (le32 e.type.code) ∧ isVoxelType e.type = true)
    · rw [if_neg htt] at h; simp at h
    replace htt := Classical.not_not.1 htt
    rw [if_pos htt] at h
    unfold readSparseData at h
    simp only at h
    rw [hnb] at h
    obtain ⟨nb', h', h⟩ := bind_inv h
    cases h'
    obtain ⟨da, hda, h⟩ := bind_inv h
    obtain ⟨al, hal, h⟩ := bind_inv h
    split at h
    · simp at h
    rename_i hlt
    obtain ⟨de, hde, h⟩ := bind_inv h
    obtain ⟨em, hem, h⟩ := bind_inv h
    rw [hc] at h
    obtain ⟨c', h', h⟩ := bind_inv h
    cases h'
    generalize hf : ((Sparse.empty zero).setSize zero w.1 w.2).setBlockOrder zero (unle ob) = f at *
    have fx : f.extents = w.1 := by rw [← hf]; rfl
    have fd : f.dw = w.2 := by rw [← hf]; rfl
    have fo : f.order = unle ob := by rw [← hf]; rfl
    have hl1 := fetchArray_length hal
    have hl2 := fetchArray_length hem
    simp only [List.length_replicate] at hl1 hl2
    have hlazy : readLayer e zero dflt kids =
        .ok ({ f with blocks := setupLazy (al.map fun b => decide (b ≠ 0)) em f.blocks }, unle nb) := by
      unfold readLayer
      rw [hw, bind_ok, hco, bind_ok, hob, bind_ok, hn, bind_ok, hr, bind_ok]
      simp only [hres, if_false]
      rw [hnb, bind_ok, hc, bind_ok]
      simp only [ht]
      rw [if_pos htt]
      unfold readData
      simp only
      rw [hf, hnb, bind_ok, hda, bind_ok, hal, bind_ok, if_neg hlt, hde, bind_ok, hem, bind_ok, hc, bind_ok]
    by_cases h0 : 0 < unle nb
    · rw [if_pos h0] at h
      have hkd : (if decide (unle c ≠ 0) = true then Kind.compressed else Kind.dataset) =
          if unle c = 0 then Kind.dataset else Kind.compressed := by
        by_cases h00 : unle c = 0 <;> simp [h00]
      rw [hkd] at h
      obtain ⟨d, hd, h⟩ := bind_inv h
      split at h
      · simp at h
      rename_i hnum
      obtain ⟨bs, hbs, h⟩ := bind_inv h
      simp only [Res.ok.injEq] at h
      subst h
      refine ⟨f, _, em, ob, nb, ⟨?_, rfl, hob, fo.symm, hnb, by simp [hl1, hl2], by simp [hl1]; omega, hlazy, ?_, ?_⟩⟩
      · show f = ((Sparse.empty zero).setSize zero f.extents f.dw).setBlockOrder zero f.order
        rw [fx, fd, fo, hf]
      · intro _
        refine ⟨d, hd, by simpa using hnum, by rw [ht, htt.1], ?_⟩
        show readBlocks e z (numVoxels f.order) (decide (unle c ≠ 0)) d _ threads sched _ = .ok bs
        rw [fo]; exact hbs
      · intro hh; exact absurd h0 hh
    · rw [if_neg h0] at h
      simp only [Res.ok.injEq] at h
      subst h
      refine ⟨f, _, em, ob, nb, ⟨?_, rfl, hob, fo.symm, hnb, by simp [hl1, hl2], by simp [hl1]; omega, hlazy, ?_, ?_⟩⟩
      · show f = ((Sparse.empty zero).setSize zero f.extents f.dw).setBlockOrder zero f.order
        rw [fx, fd, fo, hf]
      · intro hh; exact absurd hh h0
      · intro _
        show _ = setupRead (numVoxels f.order) _ _ _
        rw [fo]

/-- What the reading threads leave. -/
theorem readBlocks_inv (e : Elem α) (z : Zlib) (nv : Nat) (c : Bool) (d : List Tree) (alloc : List Bool) (threads : Nat)
    (hT : 0 < threads) (sched : List Nat) (bs rs : List (Block α))
    (h : readBlocks e z nv c d alloc threads sched bs = .ok rs) :
    rs.length = bs.length ∧ ∀ i b, bs[i]? = some b →
      if b.isAllocated then readBlock e z nv c d (datasetIdx alloc i) b = rs[i]? else rs[i]? = some b := by
  unfold readBlocks at h
  simp only at h
  by_cases hfin : ¬ (((RState.init threads (bs.map some)).run (fun b => b.any (·.isAllocated))
    (fun i b => b.bind (readBlock e z nv c d (datasetIdx alloc i))) sched).th.all (· = .done) = true)
  · rw [if_neg hfin] at h; simp at h
  replace hfin := Classical.not_not.1 hfin
  rw [if_pos hfin] at h
  have hk := (C39_every_block_once (fun b : Option (Block α) => b.any (·.isAllocated))
    (fun i b => b.bind (readBlock e z nv c d (datasetIdx alloc i))) threads hT _ sched
    (fun pc hpc => by simpa using List.all_eq_true.mp hfin pc hpc)).1
  rw [hk] at h
  split at h
  · simp at h
  rename_i rs' hm
  simp only [Res.ok.injEq] at h
  subst h
  obtain ⟨h1, h2⟩ := mapM_get _ _ _ hm
  refine ⟨by simpa using h1, ?_⟩
  intro i b hb
  have := h2 i
  rw [List.getElem?_mapIdx, List.getElem?_map, hb] at this
  simp only [Option.map_some, Option.any_some, Option.bind_some, id] at this
  split
  · rename_i ha
    rw [if_pos ha] at this; exact this.symm
  · rename_i ha
    rw [if_neg ha] at this; exact this

/-- The data of the allocated blocks, by their numbers. -/
theorem occupied_index (bs : List (Block α)) (hall : ∀ b ∈ bs, b.isAllocated = true → b.data ≠ none) (k : Nat) (x : List α)
    (h : (bs.filterMap fun b => if b.isAllocated then b.data else none)[k]? = some x) :
    ∃ i b, bs[i]? = some b ∧ b.isAllocated = true ∧ b.data = some x ∧
      datasetIdx (bs.map (·.isAllocated)) i = k := by
  induction bs generalizing k with
  | nil => simp at h
  | cons b bs ih =>
    have hr := fun b' hb' => hall b' (List.mem_cons_of_mem _ hb')
    cases ha : b.isAllocated with
    | false =>
      rw [List.filterMap_cons] at h
      simp only [ha, Bool.false_eq_true, if_false] at h
      obtain ⟨i, b', h1, h2, h3, h4⟩ := ih hr k h
      refine ⟨i + 1, b', by simpa using h1, h2, h3, ?_⟩
      unfold datasetIdx at h4 ⊢
      simpa [ha] using h4
    | true =>
      have hd := hall b (by simp) ha
      cases hb : b.data with
      | none => exact absurd hb hd
      | some y =>
        rw [List.filterMap_cons] at h
        simp only [ha, if_true, hb] at h
        cases k with
        | zero =>
          refine ⟨0, b, rfl, ha, ?_, rfl⟩
          rw [hb]; simpa using h
        | succ k =>
          obtain ⟨i, b', h1, h2, h3, h4⟩ := ih hr k (by simpa using h)
          refine ⟨i + 1, b', by simpa using h1, h2, h3, ?_⟩
          unfold datasetIdx at h4 ⊢
          simpa [ha] using h4

theorem occupied_length (bs : List (Block α)) (hall : ∀ b ∈ bs, b.isAllocated = true → b.data ≠ none) :
    (bs.filterMap fun b => if b.isAllocated then b.data else none).length = (bs.filter (·.isAllocated)).length := by
  induction bs with
  | nil => rfl
  | cons b bs ih =>
    have hr := fun b' hb' => hall b' (List.mem_cons_of_mem _ hb')
    cases ha : b.isAllocated with
    | false => rw [List.filterMap_cons, List.filter_cons]; simp [ha, ih hr]
    | true =>
      cases hb : b.data with
      | none => exact absurd hb (hall b (by simp) ha)
      | some y => rw [List.filterMap_cons, List.filter_cons]; simp [ha, hb, ih hr]

/-- Bytes that fill the array say what is in it. -/
theorem overlay_full {e : Elem α} (L : Lawful e) (buf : List α) (raw : List UInt8) (h : raw.length = buf.length * e.type.bytes) :
    e.overlay buf raw = some (e.decAll buf.length raw) := by
  unfold Elem.overlay
  rw [encAll_length L, if_pos (by omega), List.drop_eq_nil_of_le (by rw [encAll_length L]; omega), List.append_nil]

/-- The file behind a path serves the field `g`: what opening it gives, and what its blocks are. -/
structure Serves (e : Elem α) (z : Zlib) (zero dflt : α) (src : Source) (g : Sparse α) : Prop where
  opened : ∃ kids, src.layer = some (some kids) ∧
    readLayer e zero dflt kids = .ok ({ g with blocks := g.blocks.map fun b => { b with data := none } }, (occupied g).length)
  size : (((Sparse.empty zero).setSize zero g.extents g.dw).setBlockOrder zero g.order).blocks.length = g.blocks.length
  blocks : occupied g ≠ [] → ∃ d, refNumbers src = .ok (numVoxels g.order, (occupied g).length) ∧
    openReader e (occupied g).length src = .ok d ∧
    ∀ i x b, (occupied g)[i]? = some x →
      loadBlock e z (numVoxels g.order) d i b = .ok ⟨true, b.emptyValue, some x⟩

theorem serves (e : Elem α) (L : Lawful e) (z : Zlib) (zero dflt : α) (src : Source) (kids : List Tree) (g : Sparse α)
    (hk : src.layer = some (some kids)) (hr : UnlimitedRead e z zero dflt kids g) (hi : IntactLayer e z kids g) :
    Serves e z zero dflt src g ∧ (∀ b ∈ g.blocks, Sparse.BWF (numVoxels g.order) b) ∧
      g = { ((Sparse.empty zero).setSize zero g.extents g.dw).setBlockOrder zero g.order with blocks := g.blocks } := by
  obtain ⟨threads, sched, hT, hr⟩ := hr
  obtain ⟨c, hc, hc0⟩ := hi.compressed
  obtain ⟨f, alloc, empty, ob, nb, F⟩ := found e z zero dflt kids g threads sched hr c hc
  have Fdata := F.data
  simp only [hc0, if_false, ne_eq, not_false_eq_true, decide_true] at Fdata
  obtain ⟨n, hn, hcount⟩ := hi.counted
  have hnb := F.occ
  rw [hn] at hnb
  cases hnb
  have hfresh : ∀ b ∈ f.blocks, b = Block.fresh zero := by
    intro b hb
    rw [F.blank] at hb
    exact (List.mem_replicate.1 hb).2
  generalize hnv : numVoxels g.order = nv at *
  -- the blocks as they are set up
  have hset : ∀ (i : Nat) (b : Block α), (setupRead nv alloc empty f.blocks)[i]? = some b →
      (setupLazy alloc empty f.blocks)[i]? = some { b with data := none } ∧
      (b.isAllocated = true → b.data = some (List.replicate nv zero) ∧ alloc[i]? = some true) ∧
      (b.isAllocated = false → b.data = none ∧ alloc[i]? ≠ some true) := by
    intro i b hb
    unfold setupRead at hb
    rw [List.getElem?_mapIdx] at hb
    obtain ⟨b0, hb0, hb⟩ := Option.map_eq_some_iff.1 hb
    have := hfresh b0 (List.mem_of_getElem? hb0)
    subst this
    unfold setupLazy
    rw [List.getElem?_mapIdx, hb0, Option.map_some]
    cases ha : alloc[i]? with
    | none =>
      rw [ha] at hb
      simp only at hb
      subst hb
      simp [Block.fresh]
    | some a =>
      have hlt := (List.getElem?_eq_some_iff.mp ha).1
      rw [F.lens] at hlt
      rw [ha, List.getElem?_eq_getElem hlt] at hb
      simp only at hb
      subst hb
      rw [List.getElem?_eq_getElem hlt]
      cases a <;> simp [Block.resize, Block.fresh]
  have hlen1 : (setupRead nv alloc empty f.blocks).length = f.blocks.length := by simp [setupRead]
  have hlen2 : (setupLazy alloc empty f.blocks).length = f.blocks.length := by simp [setupLazy]
  -- the blocks as they are read
  have key : g.blocks.length = f.blocks.length ∧ ∀ (i : Nat) (b : Block α), (setupRead nv alloc empty f.blocks)[i]? = some b →
      ∃ b', g.blocks[i]? = some b' ∧ b'.isAllocated = b.isAllocated ∧ b'.emptyValue = b.emptyValue ∧
        Sparse.BWF nv b' ∧
        (b.isAllocated = true → 0 < unle nb → ∃ d bs raw, dataset .compressed e.type kData kids = .ok d ∧
          element d (datasetIdx alloc i) = some bs ∧ bs.length ≤ z.bound (nv * e.type.bytes) ∧
          z.decomp (nv * e.type.bytes) bs = some raw ∧ raw.length = nv * e.type.bytes ∧
          b'.data = some (e.decAll nv raw)) := by
    by_cases h0 : 0 < unle nb
    · obtain ⟨d, hd, hnum, htype, hb⟩ := Fdata h0
      obtain ⟨k1, k2⟩ := readBlocks_inv e z nv true d alloc threads hT sched _ _ hb
      refine ⟨by rw [k1, hlen1], ?_⟩
      intro i b hbi
      have k3 := k2 i b hbi
      obtain ⟨_, s1, s2⟩ := hset i b hbi
      cases ha : b.isAllocated with
      | false =>
        rw [ha] at k3
        simp only [Bool.false_eq_true, if_false] at k3
        refine ⟨b, k3, ha, rfl, ?_, by simp⟩
        unfold Sparse.BWF
        rw [ha]; simp [(s2 ha).1]
      | true =>
        rw [ha] at k3
        simp only [if_true] at k3
        unfold readBlock at k3
        rw [(s1 ha).1] at k3
        simp only [if_true] at k3
        have hlt : i < g.blocks.length := by rw [k1]; exact (List.getElem?_eq_some_iff.mp hbi).1
        rw [List.getElem?_eq_getElem hlt] at k3
        split at k3
        · simp at k3
        rename_i bs hbs
        split at k3
        · rename_i hbound
          obtain ⟨raw, hraw, hrl⟩ := hi.whole d _ bs hd hbs
          rw [hnv] at hraw hrl
          rw [hraw] at k3
          simp only at k3
          rw [overlay_full L _ _ (by simpa using hrl)] at k3
          simp only [List.length_replicate, Option.map_some, Option.some.injEq] at k3
          refine ⟨g.blocks[i], List.getElem?_eq_getElem hlt, ?_, ?_, ?_, ?_⟩
          · rw [← k3]; exact ha
          · rw [← k3]
          · rw [← k3]
            unfold Sparse.BWF
            simp only [ha, if_true]
            exact ⟨_, rfl, decAll_length _ _ _⟩
          · intro _ _
            exact ⟨d, bs, raw, hd, hbs, hbound, hraw, hrl, by rw [← k3]⟩
        · simp at k3
    · have hb := F.none h0
      rw [hnv] at hb
      refine ⟨by rw [hb, hlen1], ?_⟩
      intro i b hbi
      have hmem : b ∈ g.blocks := by rw [hb]; exact List.mem_of_getElem? hbi
      have hno : b.isAllocated = false := by
        have : (g.blocks.filter (·.isAllocated)).length = 0 := by omega
        rw [List.length_eq_zero_iff, List.filter_eq_nil_iff] at this
        simpa using this b hmem
      refine ⟨b, by rw [hb]; exact hbi, rfl, rfl, ?_, by simp [hno]⟩
      unfold Sparse.BWF
      rw [hno]; simp [((hset i b hbi).2.2 hno).1]
  obtain ⟨hlen, key⟩ := key
  have hget : ∀ (i : Nat) (b' : Block α), g.blocks[i]? = some b' → ∃ b, (setupRead nv alloc empty f.blocks)[i]? = some b := by
    intro i b' h
    have hlt := (List.getElem?_eq_some_iff.mp h).1
    exact ⟨_, List.getElem?_eq_getElem (by rw [hlen1, ← hlen]; exact hlt)⟩
  have hbwf : ∀ b ∈ g.blocks, Sparse.BWF nv b := by
    intro b hb
    obtain ⟨i, hb⟩ := List.getElem?_of_mem hb
    obtain ⟨b0, h0⟩ := hget i b hb
    obtain ⟨b', h1, _, _, h2, _⟩ := key i b0 h0
    rw [hb] at h1; cases h1
    exact h2
  have hall : ∀ b ∈ g.blocks, b.isAllocated = true → b.data ≠ none := by
    intro b hb ha
    have := hbwf b hb
    unfold Sparse.BWF at this
    rw [if_pos ha] at this
    obtain ⟨d, hd, _⟩ := this
    rw [hd]; simp
  have hol : (occupied g).length = unle nb := by
    rw [hcount]; exact occupied_length _ hall
  have hlazy : setupLazy alloc empty f.blocks = g.blocks.map fun b => { b with data := none } := by
    apply List.ext_getElem?
    intro i
    rw [List.getElem?_map]
    cases hb : g.blocks[i]? with
    | none =>
      rw [List.getElem?_eq_none_iff] at hb
      rw [Option.map_none, List.getElem?_eq_none_iff]
      omega
    | some b =>
      obtain ⟨b0, h0⟩ := hget i b hb
      obtain ⟨b', h1, h2, h3, _⟩ := key i b0 h0
      rw [hb] at h1; cases h1
      rw [(hset i b0 h0).1, Option.map_some, h2, h3]
  refine ⟨⟨⟨kids, hk, ?_⟩, ?_, ?_⟩, hbwf, by rw [← F.blank]; exact F.same⟩
  · rw [F.lazy, hlazy, hol, F.same]
  · rw [← F.blank, hlen]
  · intro hne
    have h0 : 0 < unle nb := by
      rw [← hol]
      exact List.length_pos_iff.2 hne
    obtain ⟨d, hd, hnum, htype, _⟩ := Fdata h0
    refine ⟨d, ?_, ?_, ?_⟩
    · unfold refNumbers
      rw [hk]
      simp only
      rw [F.order, bind_ok, hn, bind_ok, F.order', hnv, hol]
    · unfold openReader
      rw [hk]
      simp only
      rw [hd, bind_ok, hol, if_neg (by simpa using hnum), htype]
      simp
    · intro k x b hx
      obtain ⟨i, b', h1, h2, h3, h4⟩ := occupied_index _ hall k x hx
      obtain ⟨b0, g0⟩ := hget i b' h1
      obtain ⟨b'', g1, g2, _, _, g5⟩ := key i b0 g0
      rw [h1] at g1; cases g1
      have ha : b0.isAllocated = true := by rw [← g2]; exact h2
      obtain ⟨d', bs, raw, q1, q2, q3, q4, q5, q6⟩ := g5 ha h0
      rw [hd] at q1; cases q1
      have hidx : datasetIdx alloc i = k := by
        rw [← h4]
        have hai := ((hset i b0 g0).2.1 ha).2
        have hilt := (List.getElem?_eq_some_iff.mp hai).1
        unfold datasetIdx
        congr 2
        apply List.ext_getElem?
        intro j
        rw [List.getElem?_take, List.getElem?_take]
        split
        · rename_i hj
          have hjg : j < g.blocks.length := by have := F.le; omega
          obtain ⟨c0, c1⟩ := hget j _ (List.getElem?_eq_getElem hjg)
          obtain ⟨c', c2, c3, _⟩ := key j c0 c1
          rw [List.getElem?_map, c2, Option.map_some, c3]
          have hjl : j < alloc.length := by omega
          obtain ⟨_, s1, s2⟩ := hset j c0 c1
          rw [List.getElem?_eq_getElem hjl] at s1 s2 ⊢
          cases hc : c0.isAllocated with
          | true => exact (s1 hc).2
          | false =>
            have := (s2 hc).2
            cases hh : alloc[j] with
            | true => rw [hh] at this; exact absurd rfl this
            | false => rfl
        · rfl
      rw [hidx] at q2
      unfold loadBlock readBlock Block.resize
      rw [hnv]
      simp only [if_true, q2, q3, q4]
      rw [overlay_full L _ _ (by simpa using q5)]
      rw [h3] at q6
      cases q6
      simp [ofOption]

/-! ## Following the model in which a layer is a field -/

section
variable {e : Elem α} {z : Zlib} {zero dflt : α} {disk : Nat → Source} {files : Nat → Sparse α}
  (hs : ∀ l, Serves e z zero dflt (disk l) (files l))
include hs

theorem openLayer_follows (s : St α) (l : Nat) :
    openLayer e zero dflt disk s l = .ok (Dyn.openLayer zero files s l) := by
  obtain ⟨kids, h1, h2⟩ := (hs l).opened
  have hsz := (hs l).size
  unfold openLayer Dyn.openLayer
  rw [h1]
  simp only
  rw [h2, bind_ok]
  have hz : List.zipWith (fun (b : Block α) (_ : Block α) => { b with data := none }) (files l).blocks
      (((Sparse.empty zero).setSize zero (files l).extents (files l).dw).setBlockOrder zero (files l).order).blocks =
      (files l).blocks.map fun b => { b with data := none } := by
    apply List.ext_getElem?
    intro i
    rw [List.getElem?_zipWith, List.getElem?_map]
    cases hb : (files l).blocks[i]? with
    | none => simp
    | some b =>
      have hlt := (List.getElem?_eq_some_iff.mp hb).1
      rw [List.getElem?_eq_getElem (by rw [hsz]; exact hlt)]
      rfl
  simp only [hz, hsz, List.length_map]
  by_cases h0 : occupied (files l) = []
  · rw [h0]; rfl
  · rw [if_neg h0, if_pos (List.length_pos_iff.2 h0)]

theorem activate_follows {s t : St α} {r id : Nat} (h : Dyn.activate files s r id = some t) :
    activate e z disk s r id = .ok t := by
  unfold Dyn.activate at h
  obtain ⟨ref, h1, h⟩ := Option.bind_eq_some_iff.1 h
  obtain ⟨fi, h2, h⟩ := Option.bind_eq_some_iff.1 h
  unfold activate
  rw [h1]
  simp only [ofOption, bind_ok]
  rw [h2]
  simp only [bind_ok]
  by_cases hfi : 0 ≤ fi
  · rw [if_pos hfi] at h ⊢
    obtain ⟨ld, h3, h⟩ := Option.bind_eq_some_iff.1 h
    rw [h3]
    simp only [bind_ok]
    cases ld with
    | true => simp only [if_true, Option.some.injEq] at h ⊢; rw [h]
    | false =>
      simp only [Bool.false_eq_true, if_false] at h ⊢
      obtain ⟨a, h4, h⟩ := Option.bind_eq_some_iff.1 h
      obtain ⟨bs, h5, h⟩ := Option.bind_eq_some_iff.1 h
      obtain ⟨b, h6, h⟩ := Option.bind_eq_some_iff.1 h
      obtain ⟨x, h7, h⟩ := Option.map_eq_some_iff.1 h
      obtain ⟨d, k1, k2, k3⟩ := (hs ref.layer).blocks (by intro h0; rw [h0] at h7; simp at h7)
      rw [k1, bind_ok, k2, bind_ok, h4]
      simp only [bind_ok]
      rw [h5]
      simp only [bind_ok]
      rw [h6]
      simp only [bind_ok]
      rw [k3 _ x b h7, bind_ok, ← h, h4]
  · rw [if_neg hfi] at h ⊢
    cases h; rfl

theorem read_follows {s t : St α} {f : Nat} {p : V3i} {v : α} (h : Dyn.read files s f p = some (t, v)) :
    read e z disk s f p = .ok (t, v) := by
  unfold Dyn.read at h
  obtain ⟨o, h1, h⟩ := Option.bind_eq_some_iff.1 h
  obtain ⟨bs, h2, h⟩ := Option.bind_eq_some_iff.1 h
  simp only at h
  obtain ⟨b, h3, h⟩ := Option.bind_eq_some_iff.1 h
  unfold read
  rw [h1]
  simp only [ofOption, bind_ok]
  rw [h2]
  simp only [bind_ok]
  rw [h3]
  simp only [bind_ok]
  cases ha : b.isAllocated with
  | false =>
    rw [ha] at h
    simp only [Bool.false_eq_true, if_false, Option.some.injEq] at h ⊢
    rw [h]
  | true =>
    rw [ha] at h
    simp only [if_true] at h ⊢
    cases hf : o.file with
    | none =>
      rw [hf] at h
      simp only at h ⊢
      obtain ⟨w, h4, h⟩ := Option.map_eq_some_iff.1 h
      rw [h4]
      simp only [bind_ok]
      rw [h]
    | some r =>
      rw [hf] at h
      simp only at h ⊢
      obtain ⟨u, h4, h⟩ := Option.bind_eq_some_iff.1 h
      obtain ⟨bs', h5, h⟩ := Option.bind_eq_some_iff.1 h
      obtain ⟨b', h6, h⟩ := Option.bind_eq_some_iff.1 h
      obtain ⟨w, h7, h⟩ := Option.map_eq_some_iff.1 h
      rw [activate_follows hs h4, bind_ok, h5]
      simp only [bind_ok]
      rw [h6]
      simp only [bind_ok]
      rw [h7]
      simp only [bind_ok]
      rw [h]

theorem step_follows [DecidableEq α] {s t : St α} {ev : Props.FieldEvent α} {v : Option α}
    (h : Props.fieldStep zero files s ev = some (t, v)) : Props.diskStep e z zero dflt disk s ev = .ok (t, v) := by
  cases ev with
  | openLayer l =>
    simp only [Props.fieldStep, Option.some.injEq, Prod.mk.injEq] at h
    simp only [Props.diskStep, openLayer_follows hs, bind_ok, h]
  | read f p =>
    simp only [Props.fieldStep] at h
    obtain ⟨⟨u, w⟩, h1, h⟩ := Option.map_eq_some_iff.1 h
    cases h
    simp only [Props.diskStep, read_follows hs h1, bind_ok]
  | edit f op =>
    have : Props.fieldStep zero (fun _ => Sparse.empty zero) s (.edit f op) = some (t, v) := by cases op <;> exact h
    simp only [Props.diskStep, this, ofOption]
  | create a b =>
    have : Props.fieldStep zero (fun _ => Sparse.empty zero) s (.create a b) = some (t, v) := h
    simp only [Props.diskStep, this, ofOption]
  | copy f =>
    have : Props.fieldStep zero (fun _ => Sparse.empty zero) s (.copy f) = some (t, v) := h
    simp only [Props.diskStep, this, ofOption]
  | assign d f =>
    have : Props.fieldStep zero (fun _ => Sparse.empty zero) s (.assign d f) = some (t, v) := h
    simp only [Props.diskStep, this, ofOption]
  | evict k =>
    have : Props.fieldStep zero (fun _ => Sparse.empty zero) s (.evict k) = some (t, v) := h
    simp only [Props.diskStep, this, ofOption]
  | flush =>
    have : Props.fieldStep zero (fun _ => Sparse.empty zero) s .flush = some (t, v) := h
    simp only [Props.diskStep, this, ofOption]
  | destroy f =>
    have : Props.fieldStep zero (fun _ => Sparse.empty zero) s (.destroy f) = some (t, v) := h
    simp only [Props.diskStep, this, ofOption]

theorem run_follows [DecidableEq α] (evs : List (Props.FieldEvent α)) : ∀ {s t : St α} {vs : List (Option α)},
    Props.fieldRun zero files s evs = some (t, vs) → Props.diskRun e z zero dflt disk s evs = .ok (t, vs) := by
  induction evs with
  | nil => intro s t vs h; cases h; rfl
  | cons ev evs ih =>
    intro s t vs h
    unfold Props.fieldRun at h
    obtain ⟨⟨u, w⟩, h1, h⟩ := Option.bind_eq_some_iff.1 h
    obtain ⟨⟨u', ws⟩, h2, h⟩ := Option.map_eq_some_iff.1 h
    cases h
    unfold Props.diskRun
    rw [step_follows hs h1, bind_ok]
    simp only
    rw [ih h2, bind_ok]

end

/-- A field read from a file with a window that is not empty and not too large can be used. -/
theorem read_wf (zero : α) (g : Sparse α) (hne : g.dw.isEmpty = false) (hfit : Sparse.Fits g.dw)
    (hb : ∀ b ∈ g.blocks, Sparse.BWF (numVoxels g.order) b)
    (hsz : (((Sparse.empty zero).setSize zero g.extents g.dw).setBlockOrder zero g.order).blocks.length = g.blocks.length)
    (hg : g = { ((Sparse.empty zero).setSize zero g.extents g.dw).setBlockOrder zero g.order with blocks := g.blocks }) :
    g.WF := by
  obtain ⟨w, _⟩ := Sparse.setupBlocks_wf (zero := zero)
    (f := { ((Sparse.empty zero).setSize zero g.extents g.dw) with order := g.order }) hne hfit
  have w' : (((Sparse.empty zero).setSize zero g.extents g.dw).setBlockOrder zero g.order).WF := w
  generalize ((Sparse.empty zero).setSize zero g.extents g.dw).setBlockOrder zero g.order = f at *
  have h1 : g.dw = f.dw := by rw [hg]
  have h2 : g.order = f.order := by rw [hg]
  have h3 : g.bres = f.bres := by rw [hg]
  have h4 : g.bxy = f.bxy := by rw [hg]
  refine ⟨hne, ?_, ?_, ?_, ?_, ?_, ?_⟩
  · rw [h1, h2, h3]; exact w'.bx
  · rw [h1, h2, h3]; exact w'.by'
  · rw [h1, h2, h3]; exact w'.bz
  · rw [h1, h2, h4]; exact w'.bxy
  · rw [h1, h2, ← hsz]; exact w'.len
  · intro b h
    rw [nv_eq]; exact hb b h

/-- What the library writes is intact. -/
theorem written_intact (e : Elem α) (L : Lawful e) (hv : isVoxelType e.type = true) (z : Zlib)
    (hz : ZlibOk z) (g : Name) (pre post : List Entry) (hp : Foreign pre)
    (hq : ∀ x ∈ post, plainName (nameOf x)) (f : Sparse α) (hf : f.WF) (hN : f.blocks.length < 2 ^ 31) (log : List Nat)
    (es : List Entry) (hes : sparseEntries e z f log = some es) :
    IntactLayer e z (groupKids g (pre ++ es ++ post)) { f with blocks := reread f log } := by
  have hpl := plain_sparse e z f log es hes
  have hn : ∀ x ∈ pre ++ es ++ post, plainName (nameOf x) := by
    intro x hx
    rw [List.mem_append, List.mem_append] at hx
    rcases hx with (h | h) | h
    · exact (hp x h).1
    · exact (formatNames_ok _ (hpl x h)).2
    · exact hq x h
  have ff : ∀ k nm, nm ∈ formatNames →
      firstOf k nm (pre ++ es ++ post) = firstOf k nm (es ++ post) := by
    intro k nm hm
    rw [List.append_assoc, foreign_first hp k nm hm]
  have s := fun nm hm => (formatNames_ok nm hm).1
  unfold sparseEntries at hes
  have hnb := numBlocks_eq f hf
  have hnb' : (f.bres.x * f.bres.y * f.bres.z).toNat = f.blocks.length := by rw [hnb]; rfl
  simp only [hnb', List.take_length] at hes
  cases hm : log.mapM (blockBytes e z f) with
  | none => rw [hm] at hes; simp at hes
  | some els =>
    rw [hm] at hes
    simp only [Option.some.injEq] at hes
    obtain ⟨hlen, hget⟩ := mapM_get _ log els hm
    have hcmp := attr_get g kCompressed .uint8 [1] _ (s _ (by decide)) hn
      (by rw [ff _ _ (by decide), ← hes]; rfl) (by decide) rfl
    have hoc := attr_get g kOccupied .uint32 (le32 (f.blocks.filter (·.isAllocated)).length) _ (s _ (by decide)) hn
      (by rw [ff _ _ (by decide), ← hes]; rfl) (by decide) rfl
    have hb : 0 < e.type.bytes := by revert hv; cases e.type <;> simp [isVoxelType, DataType.bytes]
    have hel : ∀ (i : Nat) bs, els[i]? = some bs → ∃ x, bs = z.comp (e.encAll x) ∧ x.length = numVoxels f.order := by
      intro i bs hi
      rw [hget i] at hi
      obtain ⟨j, hj, hi⟩ := Option.bind_eq_some_iff.1 hi
      simp only [blockBytes] at hi
      split at hi
      · simp at hi
      · split at hi
        · simp at hi
        · split at hi
          · simp only [Option.some.injEq] at hi
            exact ⟨_, hi.symm, by rw [List.length_take]; omega⟩
          · simp at hi
    obtain ⟨⟨d, h1, h2, h3⟩, h4⟩ := dataset_get true g kData e.type els _ (s _ (by decide)) hn
      (by
        intro x hx h0
        subst h0
        obtain ⟨i, hi⟩ := List.getElem?_of_mem hx
        obtain ⟨x, hx, _⟩ := hel i _ hi
        exact hz.ne _ hx.symm)
      (by rw [ff _ _ (by decide), ← hes]; rfl)
    simp only [if_true] at h1
    refine ⟨⟨_, hcmp, by decide⟩, ⟨_, hoc, ?_⟩, ?_⟩
    · have := List.length_filter_le (·.isAllocated) f.blocks
      rw [unle_le32 _ (by omega)]
      show _ = ((reread f log).filter (·.isAllocated)).length
      have : ∀ a b : List (Block α), a.map (·.isAllocated) = b.map (·.isAllocated) →
          (a.filter (·.isAllocated)).length = (b.filter (·.isAllocated)).length := by
        intro a b hab
        have e1 : ∀ l : List (Block α), (l.filter (·.isAllocated)).length = ((l.map (·.isAllocated)).filter id).length := by
          intro l; rw [List.filter_map, List.length_map]; rfl
        rw [e1, e1, hab]
      apply this
      apply List.ext_getElem?
      intro i
      rw [reread, List.getElem?_map, List.getElem?_map, List.getElem?_mapIdx]
      cases f.blocks[i]? with
      | none => rfl
      | some b => simp only [Option.map_some]; split <;> rfl
    · intro d' i bs hd' hi
      rw [h1] at hd'
      cases hd'
      rw [h3 i] at hi
      obtain ⟨x, rfl, hx⟩ := hel i bs hi
      refine ⟨e.encAll x, ?_, by rw [encAll_length L, hx]⟩
      show z.decomp (numVoxels f.order * e.type.bytes) _ = _
      have : numVoxels f.order * e.type.bytes = (e.encAll x).length := by rw [encAll_length L, hx]
      rw [this, hz.inv]

/-- A field read from a file is its own map. -/
theorem refines_mapOf (zero : α) (g : Sparse α) (hw : g.WF) (hf : Sparse.Fits g.dw) : Props.Refines g (mapOf zero g) := by
  refine ⟨hw, hf, rfl, rfl, rfl, ?_, ?_⟩
  · intro p hp
    obtain ⟨v, hv⟩ := Sparse.value_isSome hw hp
    simp [mapOf, hv]
  · intro p hp
    obtain ⟨b, hb, _⟩ := Sparse.get_block hw hp
    have hid : g.block? (g.blockId (Props.blockOf g.dw g.order p)) = some b := by
      rw [← Props.blockCoord_blockOf, Sparse.id_eq hw hp, Sparse.block?_nat, hb]
    unfold Sparse.allocAt mapOf
    simp [hb, hid]

/-! ## Files on which the two ways of reading disagree -/

theorem readBlock_same {e : Elem α} {z : Zlib} {nv : Nat} {c : Bool} {d : List Tree} {i : Nat} {b b' : Block α}
    (h : readBlock e z nv c d i b = some b') : b'.isAllocated = b.isAllocated ∧ b'.emptyValue = b.emptyValue := by
  have map_data : ∀ {o : Option (List α)}, (o.map fun data => { b with data := some data }) = some b' →
      b'.isAllocated = b.isAllocated ∧ b'.emptyValue = b.emptyValue := by
    intro o ho
    obtain ⟨x, -, rfl⟩ := Option.map_eq_some_iff.1 ho
    exact ⟨rfl, rfl⟩
  unfold readBlock at h
  split at h
  · simp at h
  split at h
  · split at h
    · simp at h
    split at h
    · split at h
      · cases h; exact ⟨rfl, rfl⟩
      · exact map_data h
    · simp at h
  · split at h
    · cases h; exact ⟨rfl, rfl⟩
    · exact map_data h

/-- What opening a layer gives, if it can be read without a limit. -/
theorem opens (e : Elem α) (z : Zlib) (zero dflt : α) (kids : List Tree) (g : Sparse α) (threads : Nat) (hT : 0 < threads)
    (sched : List Nat) (h : readSparse e z zero dflt threads sched kids = .ok g) (c : List UInt8)
    (hc : attr .uint8 kCompressed kids = .ok c) :
    ∃ ob nb, attr .uint8 kBlockOrder kids = .ok ob ∧ unle ob = g.order ∧ attr .uint32 kOccupied kids = .ok nb ∧
      readLayer e zero dflt kids = .ok ({ g with blocks := g.blocks.map fun b => { b with data := none } }, unle nb) ∧
      g = { ((Sparse.empty zero).setSize zero g.extents g.dw).setBlockOrder zero g.order with blocks := g.blocks } ∧
      ∀ i b, g.blocks[i]? = some b → b.isAllocated = true →
        (unle nb = 0 → b.data = some (List.replicate (numVoxels g.order) zero)) ∧
        (0 < unle nb → ∃ d, dataset (if unle c = 0 then .dataset else .compressed) e.type kData kids = .ok d ∧
          numElements d = unle nb ∧
          typeOf (if unle c = 0 then .dataset else .compressed) kData kids = some (some (le32 e.type.code)) ∧
          readBlock e z (numVoxels g.order) (decide (unle c ≠ 0)) d (datasetIdx (g.blocks.map (·.isAllocated)) i)
            ⟨true, b.emptyValue, some (List.replicate (numVoxels g.order) zero)⟩ = some b) := by
  obtain ⟨f, alloc, empty, ob, nb, F⟩ := found e z zero dflt kids g threads sched h c hc
  have hfresh : ∀ b ∈ f.blocks, b = Block.fresh zero := by
    intro b hb
    rw [F.blank] at hb
    exact (List.mem_replicate.1 hb).2
  have Fdata := F.data
  have Fnone := F.none
  generalize hnv : numVoxels g.order = nv at *
  have hset : ∀ (i : Nat) (b : Block α), (setupRead nv alloc empty f.blocks)[i]? = some b →
      (setupLazy alloc empty f.blocks)[i]? = some { b with data := none } ∧
      (b.isAllocated = true → b.data = some (List.replicate nv zero) ∧ alloc[i]? = some true) ∧
      (b.isAllocated = false → b.data = none ∧ alloc[i]? ≠ some true) := by
    intro i b hb
    unfold setupRead at hb
    rw [List.getElem?_mapIdx] at hb
    obtain ⟨b0, hb0, hb⟩ := Option.map_eq_some_iff.1 hb
    have := hfresh b0 (List.mem_of_getElem? hb0)
    subst this
    unfold setupLazy
    rw [List.getElem?_mapIdx, hb0, Option.map_some]
    cases ha : alloc[i]? with
    | none =>
      rw [ha] at hb
      simp only at hb
      subst hb
      simp [Block.fresh]
    | some a =>
      have hlt := (List.getElem?_eq_some_iff.mp ha).1
      rw [F.lens] at hlt
      rw [ha, List.getElem?_eq_getElem hlt] at hb
      simp only at hb
      subst hb
      rw [List.getElem?_eq_getElem hlt]
      cases a <;> simp [Block.resize, Block.fresh]
  have hlen1 : (setupRead nv alloc empty f.blocks).length = f.blocks.length := by simp [setupRead]
  have hlen2 : (setupLazy alloc empty f.blocks).length = f.blocks.length := by simp [setupLazy]
  have key : g.blocks.length = f.blocks.length ∧ ∀ (i : Nat) (b : Block α), (setupRead nv alloc empty f.blocks)[i]? = some b →
      ∃ b', g.blocks[i]? = some b' ∧ b'.isAllocated = b.isAllocated ∧ b'.emptyValue = b.emptyValue ∧
        (unle nb = 0 → b' = b) ∧
        (b.isAllocated = true → 0 < unle nb → ∃ d, dataset (if unle c = 0 then .dataset else .compressed) e.type kData kids = .ok d ∧
          numElements d = unle nb ∧
          typeOf (if unle c = 0 then .dataset else .compressed) kData kids = some (some (le32 e.type.code)) ∧
          readBlock e z nv (decide (unle c ≠ 0)) d (datasetIdx alloc i) b = some b') := by
    by_cases h0 : 0 < unle nb
    · obtain ⟨d, hd, hnum, htype, hb⟩ := Fdata h0
      obtain ⟨k1, k2⟩ := readBlocks_inv e z nv _ d alloc threads hT sched _ _ hb
      refine ⟨by rw [k1, hlen1], ?_⟩
      intro i b hbi
      have k3 := k2 i b hbi
      cases ha : b.isAllocated with
      | false =>
        rw [ha] at k3
        simp only [Bool.false_eq_true, if_false] at k3
        exact ⟨b, k3, ha, rfl, fun _ => rfl, by simp⟩
      | true =>
        rw [ha] at k3
        simp only [if_true] at k3
        have hlt : i < g.blocks.length := by rw [k1]; exact (List.getElem?_eq_some_iff.mp hbi).1
        rw [List.getElem?_eq_getElem hlt] at k3
        obtain ⟨k4, k5⟩ := readBlock_same k3
        exact ⟨_, List.getElem?_eq_getElem hlt, by rw [k4, ha], k5, fun h => absurd h (by omega), fun _ _ => ⟨d, hd, hnum, htype, k3⟩⟩
    · have hb := Fnone h0
      refine ⟨by rw [hb, hlen1], fun i b hbi => ⟨b, by rw [hb]; exact hbi, rfl, rfl, fun _ => rfl, fun _ h => absurd h h0⟩⟩
  obtain ⟨hlen, key⟩ := key
  have hget : ∀ (i : Nat) (b' : Block α), g.blocks[i]? = some b' → ∃ b, (setupRead nv alloc empty f.blocks)[i]? = some b := by
    intro i b' h
    have hlt := (List.getElem?_eq_some_iff.mp h).1
    exact ⟨_, List.getElem?_eq_getElem (by rw [hlen1, ← hlen]; exact hlt)⟩
  have hlazy : setupLazy alloc empty f.blocks = g.blocks.map fun b => { b with data := none } := by
    apply List.ext_getElem?
    intro i
    rw [List.getElem?_map]
    cases hb : g.blocks[i]? with
    | none =>
      rw [List.getElem?_eq_none_iff] at hb
      rw [Option.map_none, List.getElem?_eq_none_iff]
      omega
    | some b =>
      obtain ⟨b0, h0⟩ := hget i b hb
      obtain ⟨b', h1, h2, h3, _⟩ := key i b0 h0
      rw [hb] at h1; cases h1
      rw [(hset i b0 h0).1, Option.map_some, h2, h3]
  refine ⟨ob, nb, F.order, F.order', F.occ, ?_, by rw [← F.blank]; exact F.same, ?_⟩
  · rw [F.lazy, hlazy]
    have := F.same
    generalize g.blocks = bs at *
    rw [this]
  · intro i b hb ha
    obtain ⟨b0, h0⟩ := hget i b hb
    obtain ⟨b', h1, h2, h3, h4, h5⟩ := key i b0 h0
    rw [hb] at h1; cases h1
    have ha0 : b0.isAllocated = true := by rw [← h2]; exact ha
    have hs := (hset i b0 h0).2.1 ha0
    refine ⟨fun hz => by rw [h4 hz]; exact hs.1, fun hpos => ?_⟩
    obtain ⟨d, q1, q2, q3, q4⟩ := h5 ha0 hpos
    refine ⟨d, q1, q2, q3, ?_⟩
    have hidx : datasetIdx alloc i = datasetIdx (g.blocks.map (·.isAllocated)) i := by
      have hilt := (List.getElem?_eq_some_iff.mp hs.2).1
      unfold datasetIdx
      congr 2
      apply List.ext_getElem?
      intro j
      rw [List.getElem?_take, List.getElem?_take]
      split
      · rename_i hj
        have hjg : j < g.blocks.length := by have := F.le; omega
        obtain ⟨c0, c1⟩ := hget j _ (List.getElem?_eq_getElem hjg)
        obtain ⟨c', c2, c3, _⟩ := key j c0 c1
        rw [List.getElem?_map, c2, Option.map_some, c3]
        have hjl : j < alloc.length := by omega
        obtain ⟨_, s1, s2⟩ := hset j c0 c1
        rw [List.getElem?_eq_getElem hjl] at s1 s2 ⊢
        cases hc : c0.isAllocated with
        | true => exact (s1 hc).2
        | false =>
          have := (s2 hc).2
          cases hh : alloc[j] with
          | true => rw [hh] at this; exact absurd rfl this
          | false => rfl
      · rfl
    rw [← hidx]
    have hb0 : b0 = ⟨true, b.emptyValue, some (List.replicate nv zero)⟩ := by
      cases b0
      simp only at ha0 h3 hs
      rw [ha0, h3, hs.1]
    rw [← hb0]; exact q4

theorem numberBlocks_idx (bs : List (Block α)) : ∀ (n : Nat) (i : Nat) (b : Block α), bs[i]? = some b → b.isAllocated = true →
    (numberBlocks bs (n : Int))[i]? = some (((n + datasetIdx (bs.map (·.isAllocated)) i : Nat)) : Int) := by
  induction bs with
  | nil => simp
  | cons b0 bs ih =>
    intro n i b hb ha
    cases i with
    | zero =>
      simp at hb; subst hb
      simp [numberBlocks, ha, datasetIdx]
    | succ i =>
      simp only [List.getElem?_cons_succ] at hb
      cases h0 : b0.isAllocated with
      | true =>
        have := ih (n + 1) i b hb ha
        simp only [numberBlocks, h0, if_true, List.getElem?_cons_succ]
        push_cast at this ⊢
        rw [this]
        simp only [datasetIdx, List.map_cons, h0, List.take_succ_cons, List.filter_cons, id, if_true, List.length_cons]
        push_cast
        congr 1
        omega
      | false =>
        have := ih n i b hb ha
        simp only [numberBlocks, h0, Bool.false_eq_true, if_false, List.getElem?_cons_succ]
        rw [this]
        simp [datasetIdx, h0]

/-- Reading a voxel of a block that is not loaded. -/
theorem read_loads (e : Elem α) (z : Zlib) (disk : Nat → Source) {s : St α} {f r : Nat} {o : Fld α} {bs : List (Block α)} {ref : Ref}
    {p : V3i} {b : Block α} {fi : Nat} {G : Sparse α} (ho : s.flds f = some o) (hfile : o.file = some r) (hh : s.heap o.arr = some bs)
    (hr : s.refs r = some ref) (hG : ({ o.geom with blocks := bs } : Sparse α) = G)
    (hb : G.block? (G.blockId (G.blockCoord (G.offsetCoord p))) = some b) (ha : b.isAllocated = true)
    (hfi : ref.fileIdx[(G.blockId (G.blockCoord (G.offsetCoord p))).toNat]? = some (fi : Int))
    (hld : ref.loaded[(G.blockId (G.blockCoord (G.offsetCoord p))).toNat]? = some false) :
    (ref.arr = none → read e z disk s f p = (refNumbers (disk ref.layer)).bind fun nums =>
      (openReader e nums.2 (disk ref.layer)).bind fun _ => .crash) ∧
    (ref.arr = some o.arr → ∃ t : Block α → St α, read e z disk s f p = (refNumbers (disk ref.layer)).bind fun nums =>
      (openReader e nums.2 (disk ref.layer)).bind fun d => (loadBlock e z nums.1 d fi b).bind fun b' =>
      (ofOption (b'.read (Block.offset G.order (G.voxelInBlock (G.offsetCoord p))))).bind fun v => .ok (t b', v)) := by
  have hid : 0 ≤ G.blockId (G.blockCoord (G.offsetCoord p)) := by
    refine Classical.byContradiction fun h => ?_
    rw [Sparse.block?, if_neg h] at hb
    simp at hb
  have hGb : G.blocks = bs := by rw [← hG]
  have hbi : bs[(G.blockId (G.blockCoord (G.offsetCoord p))).toNat]? = some b := by
    rw [Sparse.block?, if_pos hid] at hb
    rw [← hGb]; exact hb
  have hread : read e z disk s f p = (activate e z disk s r (G.blockId (G.blockCoord (G.offsetCoord p))).toNat).bind fun s =>
      (ofOption (s.heap o.arr)).bind fun bs =>
        (ofOption (({ o.geom with blocks := bs } : Sparse α).block? (G.blockId (G.blockCoord (G.offsetCoord p))))).bind fun b =>
          (ofOption (b.read (Block.offset G.order (G.voxelInBlock (G.offsetCoord p))))).bind fun v => .ok (s, v) := by
    unfold read
    rw [ho]
    simp only [ofOption, bind_ok]
    rw [hh]
    simp only [bind_ok]
    rw [hG, hb]
    simp only [bind_ok, ha, if_true, hfile]
    have hord : o.geom.order = G.order := by rw [← hG]
    rw [hord]
  have hact : activate e z disk s r (G.blockId (G.blockCoord (G.offsetCoord p))).toNat =
      (refNumbers (disk ref.layer)).bind fun nums => (openReader e nums.2 (disk ref.layer)).bind fun d =>
        (ofOption ref.arr).bind fun a => (ofOption (s.heap a)).bind fun bs =>
        (ofOption bs[(G.blockId (G.blockCoord (G.offsetCoord p))).toNat]?).bind fun b =>
        (loadBlock e z nums.1 d fi b).bind fun b' =>
          .ok { s with heap := upd s.heap a (some (bs.set (G.blockId (G.blockCoord (G.offsetCoord p))).toNat b'))
                       refs := upd s.refs r (some { ref with
                         loaded := ref.loaded.set (G.blockId (G.blockCoord (G.offsetCoord p))).toNat true })
                       cache := s.cache ++ [(r, (G.blockId (G.blockCoord (G.offsetCoord p))).toNat)] } := by
    unfold activate
    rw [hr]
    simp only [ofOption, bind_ok]
    rw [hfi]
    simp only [bind_ok]
    rw [if_pos (by omega), hld]
    simp only [bind_ok, Bool.false_eq_true, if_false, Int.toNat_natCast]
  rw [hread, hact]
  constructor
  · intro harr
    rw [harr]
    cases refNumbers (disk ref.layer) with
    | ok nums =>
      simp only [bind_ok]
      cases openReader e nums.2 (disk ref.layer) <;> rfl
    | _ => rfl
  · intro harr
    rw [harr]
    refine ⟨fun b' => { s with
        heap := upd s.heap o.arr (some (bs.set (G.blockId (G.blockCoord (G.offsetCoord p))).toNat b'))
        refs := upd s.refs r (some { ref with
          loaded := ref.loaded.set (G.blockId (G.blockCoord (G.offsetCoord p))).toNat true })
        cache := s.cache ++ [(r, (G.blockId (G.blockCoord (G.offsetCoord p))).toNat)] }, ?_⟩
    rw [harr]
    cases refNumbers (disk ref.layer) with
    | ok nums =>
      simp only [bind_ok]
      cases openReader e nums.2 (disk ref.layer) with
      | ok d =>
        simp only [bind_ok, ofOption]
        rw [hh]
        simp only [bind_ok]
        rw [hbi]
        simp only [bind_ok]
        cases loadBlock e z nums.1 d fi b with
        | ok b' =>
          simp only [bind_ok, upd, if_true]
          rw [Sparse.block?, if_pos hid]
          simp only
          rw [List.getElem?_set_self (List.getElem?_eq_some_iff.mp hbi).1]
          rfl
        | _ => rfl
      | _ => rfl
    | _ => rfl

/-- The first voxel that is read from an allocated block of a layer that was just opened. -/
theorem first_read (e : Elem α) (z : Zlib) (zero dflt : α) (src : Source) (kids : List Tree) (g : Sparse α)
    (hk : src.layer = some (some kids)) (n : Nat) (hl : readLayer e zero dflt kids =
      .ok ({ g with blocks := g.blocks.map fun b => { b with data := none } }, n))
    (hg : g = { ((Sparse.empty zero).setSize zero g.extents g.dw).setBlockOrder zero g.order with blocks := g.blocks })
    (p : V3i) (b : Block α)
    (hb : g.block? (g.blockId (g.blockCoord (g.offsetCoord p))) = some b) (ha : b.isAllocated = true) :
    ∃ s : St α, openLayer e zero dflt (fun _ => src) St.init 0 = .ok s ∧
      (n = 0 → read e z (fun _ => src) s 0 p = (refNumbers src).bind fun nums => (openReader e nums.2 src).bind fun _ => .crash) ∧
      (0 < n → ∃ t : Block α → St α, read e z (fun _ => src) s 0 p = (refNumbers src).bind fun nums =>
        (openReader e nums.2 src).bind fun d =>
        (loadBlock e z nums.1 d (datasetIdx (g.blocks.map (·.isAllocated))
          (g.blockId (g.blockCoord (g.offsetCoord p))).toNat) { b with data := none }).bind fun b' =>
        (ofOption (b'.read (Block.offset g.order (g.voxelInBlock (g.offsetCoord p))))).bind fun v => .ok (t b', v)) := by
  have hid : 0 ≤ g.blockId (g.blockCoord (g.offsetCoord p)) := by
    refine Classical.byContradiction fun h => ?_
    rw [Sparse.block?, if_neg h] at hb
    simp at hb
  have hbi : g.blocks[(g.blockId (g.blockCoord (g.offsetCoord p))).toNat]? = some b := by
    rw [Sparse.block?, if_pos hid] at hb
    exact hb
  have hlt := (List.getElem?_eq_some_iff.mp hbi).1
  have hmap : (g.blocks.map fun b => ({ b with data := none } : Block α))[(g.blockId (g.blockCoord (g.offsetCoord p))).toNat]? =
      some { b with data := none } := by
    rw [List.getElem?_map, hbi]; rfl
  have hG : ({ ((Sparse.empty zero).setSize zero g.extents g.dw).setBlockOrder zero g.order with
      blocks := g.blocks.map fun b => { b with data := none } } : Sparse α) =
      { g with blocks := g.blocks.map fun b => { b with data := none } } := by
    generalize ((Sparse.empty zero).setSize zero g.extents g.dw).setBlockOrder zero g.order = f at *
    generalize g.blocks = bs at *
    rw [hg]
  have hbG : ({ g with blocks := g.blocks.map fun b => { b with data := none } } : Sparse α).block?
      (g.blockId (g.blockCoord (g.offsetCoord p))) = some { b with data := none } := by
    rw [Sparse.block?, if_pos hid]; exact hmap
  unfold openLayer
  rw [hk]
  simp only
  rw [hl, bind_ok]
  simp only
  refine ⟨_, rfl, ?_, ?_⟩
  · intro h0
    rw [if_neg (by omega)]
    refine (read_loads e z (fun _ => src) (f := 0) (r := 0) (fi := 0) (ref := ⟨0, _, _, none, true⟩) rfl rfl rfl rfl hG hbG ha ?_ ?_).1 rfl
    · show (List.replicate _ (0 : Int))[_]? = _
      rw [List.getElem?_replicate, if_pos (by rw [List.length_map]; exact hlt)]; rfl
    · show (List.replicate _ false)[_]? = _
      rw [List.getElem?_replicate, if_pos (by rw [List.length_map]; exact hlt)]
  · intro h0
    rw [if_pos h0]
    refine (read_loads e z (fun _ => src) (f := 0) (r := 0) (ref := ⟨0, _, _, some 0, true⟩) rfl rfl rfl rfl hG hbG ha ?_ ?_).2 rfl
    · show (numberBlocks _ ((0 : Nat) : Int))[_]? = _
      refine (numberBlocks_idx _ 0 _ _ hmap ha).trans ?_
      rw [Nat.zero_add, List.map_map]
      rfl
    · show (List.replicate _ false)[_]? = _
      rw [List.getElem?_replicate, if_pos (by rw [List.length_map]; exact hlt)]

end F3D.LazyFile
