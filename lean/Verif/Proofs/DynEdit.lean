import Verif.Proofs.DynCopy

namespace F3D.Dyn
open F3D.Props

variable {α : Type} {files : Nat → Sparse α} {s : St α} {w : World α}

/-- Both kinds of fields stand for some field with its blocks in memory. -/
theorem FieldOk.ideal {o : Fld α} {h : Handle α} (k : FieldOk files s o h) :
    ∃ x, Refines (viewOf o x) h.map := by
  cases k with
  | plain bs _ _ _ hr => exact ⟨bs, hr⟩
  | backed _ _ _ ib _ _ _ _ _ _ _ hr => exact ⟨ib, hr⟩

theorem fld_self {f : Nat} {h : Handle α} (hw : w.fld f = some h) :
    ∀ g, w.fld g = if g = f then some h else w.fld g := by
  intro g
  split
  · next e => rw [e]; exact hw
  · rfl

/-! ## New tables -/

theorem resetup_ok (I : Inv files s w) {f : Nat} {o : Fld α} {h : Handle α} (ho : s.flds f = some o)
    (hw : w.fld f = some h) (hd : World.discardable h) {g : Sparse α} {m : SparseMap α}
    (hr : Refines g m) (hn : ∀ b, ¬ m.alloc b) :
    ∃ s', resetup s f o g = some s' ∧ Inv files s' (w.put f { h with edited := true, map := m }) := by
  have k := I.ok f o h ho hw
  obtain ⟨bs0, hb0⟩ := k.heap
  have hlt : f < s.nextF := by
    apply Nat.lt_of_not_le
    intro hle
    rw [I.fBound f hle] at ho; cases ho
  refine ⟨{ s with heap := upd (upd s.heap o.arr none) s.nextA (some g.blocks), nextA := s.nextA + 1,
                   flds := upd s.flds f (some { o with geom := g, arr := s.nextA }) }, ?_, ?_⟩
  · simp only [resetup, St.freeArr, hb0, Option.map_some, St.newArr]
  refine I.place (f := f) (o' := { o with geom := g, arr := s.nextA }) (h' := { h with edited := true, map := m })
    rfl (fun _ => rfl) I.next (Nat.le_refl _) hlt rfl rfl (Nat.le_refl _) ?_ ?_ (fun _ _ => rfl) I.rBound rfl ?_ ?_ ?_
  · intro g' o2 hg ho2
    show upd (upd s.heap o.arr none) s.nextA (some g.blocks) o2.arr = _
    rw [upd_ne _ _ (by have := I.arr_lt ho2; omega), upd_ne]
    intro he; exact hg (I.arrInj g' f o2 o ho2 ho he)
  · intro a ha
    have ha' : upd (upd s.heap o.arr none) s.nextA (some g.blocks) a ≠ none := ha
    by_cases hx : a = s.nextA
    · exact .inl hx
    · rw [upd_ne _ _ hx] at ha'
      by_cases hy : a = o.arr
      · subst hy; rw [upd_same] at ha'; exact absurd rfl ha'
      · rw [upd_ne _ _ hy] at ha'
        exact .inr ⟨ha', fun o2 ho2 => by rw [ho] at ho2; cases ho2; exact fun e => hy e.symm⟩
  · intro r hr; exact .inr ⟨o, ho, hr⟩
  · intro o2 r ho2 hr2
    rw [ho] at ho2; cases ho2
    exact I.cold ho hw hd r hr2
  · cases k with
    | plain bs hfile hl hb hr0 => exact .plain g.blocks hfile hl (upd_same _ _ _) hr
    | backed r ref bs ib hfile hl hb href alive cold load hr0 len cells same =>
      refine .backed r ref g.blocks g.blocks hfile hl (upd_same _ _ _) href alive cold load hr rfl ?_ (by simp)
      intro i b c hbi hci
      rw [hbi] at hci; cases hci
      have hi : i < g.blocks.length := (List.getElem?_eq_some_iff.mp hbi).1
      obtain ⟨p, hp, hid⟩ := exists_voxel hr.wf hi
      have hna : b.isAllocated = false := by
        cases hba : b.isAllocated with
        | false => rfl
        | true => exact absurd ((hr.alloc p hp).mp ⟨b, by rw [hid]; exact hbi, hba⟩) (hn _)
      have hbw := hr.wf.blk b (List.mem_of_getElem? hbi)
      simp only [Sparse.BWF, hna, Bool.false_eq_true, if_false] at hbw
      exact ⟨rfl, rfl, fun _ => hbw, fun ha => by rw [hna] at ha; cases ha⟩

/-! ## Changes in place -/

theorem view_eq {o : Fld α} {x : List (Block α)} {g : Sparse α} {m m' : SparseMap α}
    (hr : Refines (viewOf o x) m) (hg : Refines g m') (he : m'.extents = m.extents) (hd : m'.dw = m.dw)
    (ho : m'.order = m.order) : viewOf o g.blocks = g := by
  have e1 : o.geom.extents = g.extents := by have := hr.extents; have := hg.extents; simp_all [viewOf]
  have e2 : o.geom.dw = g.dw := by have := hr.dw; have := hg.dw; simp_all [viewOf]
  have e3 : o.geom.order = g.order := by have := hr.order; have := hg.order; simp_all [viewOf]
  have b1 : o.geom.bres.x = g.bres.x := by
    rw [hg.wf.bx, ← e2, ← e3]; exact hr.wf.bx
  have b2 : o.geom.bres.y = g.bres.y := by
    rw [hg.wf.by', ← e2, ← e3]; exact hr.wf.by'
  have b3 : o.geom.bres.z = g.bres.z := by
    rw [hg.wf.bz, ← e2, ← e3]; exact hr.wf.bz
  have b4 : o.geom.bxy = g.bxy := by
    rw [hg.wf.bxy, ← e2, ← e3]; exact hr.wf.bxy
  obtain ⟨og, oa, of⟩ := o
  obtain ⟨oe, od, oo, ⟨ox, oy, oz⟩, oxy, ob⟩ := og
  obtain ⟨ge, gd, go, ⟨gx, gy, gz⟩, gxy, gb⟩ := g
  dsimp only at e1 e2 e3 b1 b2 b3 b4
  subst e1 e2 e3 b1 b2 b3 b4
  rfl

theorem inPlace_plain (I : Inv files s w) {f : Nat} {o : Fld α} {h : Handle α} (ho : s.flds f = some o)
    (hw : w.fld f = some h) (hl : h.lazy = false) {op : Sparse α → Option (Sparse α)} {m : SparseMap α}
    (he : m.extents = h.map.extents) (hd : m.dw = h.map.dw) (hord : m.order = h.map.order)
    (hop : ∀ g, Refines g h.map → ∃ g', op g = some g' ∧ Refines g' m) :
    ∃ s', inPlace s f op = some s' ∧ Inv files s' (w.put f { h with edited := true, map := m }) := by
  have k := I.ok f o h ho hw
  cases k with
  | backed _ _ _ _ _ hl' => rw [hl] at hl'; cases hl'
  | plain bs hfile _ hb hr =>
    obtain ⟨g', hg, hr'⟩ := hop _ hr
    have hv := view_eq hr hr' he hd hord
    refine ⟨{ s with heap := upd s.heap o.arr (some g'.blocks) }, ?_, ?_⟩
    · have : op { o.geom with blocks := bs } = some g' := hg
      simp only [inPlace, ho, Option.bind_some, hb, this, Option.map_some]
    · refine I.touch (h' := { h with edited := true, map := m }) ho hw rfl (fun _ => rfl) rfl rfl rfl rfl
        (fun a ha => upd_ne _ _ ha) (fun _ _ => rfl) (fun _ _ => Iff.rfl) I.nodup ?_ ?_
      · intro k _ hk; rw [hfile] at hk; cases hk
      · exact .plain g'.blocks hfile hl (upd_same _ _ _) (by rw [hv]; exact hr')

theorem setEmpty_lazy (I : Inv files s w) [DecidableEq α] (zero : α) {f : Nat} {o : Fld α} {h : Handle α} (ho : s.flds f = some o)
    (hw : w.fld f = some h) (hl : h.lazy = true) (bc : V3i) (v : α)
    (hok : h.map.allowed (.setBlockEmptyValue bc v)) :
    ∃ s', setBlockEmptyValue s f bc v = some s' ∧
      Inv files s' (w.put f { h with edited := true, map := h.map.apply zero (.setBlockEmptyValue bc v) }) := by
  have k := I.ok f o h ho hw
  cases k with
  | plain _ _ hl' => rw [hl] at hl'; cases hl'
  | backed r ref bs ib hfile _ hb href alive cold load hr len cells same =>
    obtain ⟨g, hg, hrg⟩ := refines_step zero hr (.setBlockEmptyValue bc v) hok
    obtain ⟨q, hq, rfl⟩ := hok
    have hq' : (viewOf o ib).dw.contains q = true := by rw [hr.dw]; exact hq
    obtain ⟨c', hspec, hbw, hna, hev⟩ := setBlockEmptyValue_spec hr.wf hq' v
    rw [hr.dw, hr.order] at hspec
    simp only [sparseStep] at hg
    rw [hspec] at hg
    cases hg
    have hilt := Sparse.idN_lt hr.wf hq'
    have hid := Sparse.id_eq hr.wf hq'
    rw [blockCoord_blockOf, hr.dw, hr.order] at hid
    generalize hbc : blockOf h.map.dw h.map.order q = bc at *
    generalize hi : (viewOf o ib).idN q = i at *
    have hilt2 : i < bs.length := by rw [← len]; exact hilt
    have hbi : bs[i]? = some (bs[i]) := List.getElem?_eq_getElem hilt2
    have hci : ib[i]? = some (ib[i]'hilt) := List.getElem?_eq_getElem hilt
    have cc := cells i _ _ hbi hci
    generalize bs[i] = b at hbi cc
    obtain ⟨b', hb', n1, n2, n3⟩ : ∃ b', (viewOf o bs).setBlockEmptyValue bc v = some ((viewOf o bs).setBlock (i : Nat) b') ∧
        b'.isAllocated = false ∧ b'.emptyValue = v ∧ b'.data = none := by
      unfold Sparse.setBlockEmptyValue
      have hid' : (viewOf o bs).blockId bc = (i : Nat) := hid
      have hbl : (viewOf o bs).blocks[i]? = some b := hbi
      simp only [hid', Sparse.block?_nat, hbl]
      refine ⟨_, rfl, ?_⟩
      cases hba : b.isAllocated with
      | true => simp [Sparse.deallocBlock, Block.clear]
      | false => simp [cc.free hba, hba]
    refine ⟨{ s with heap := upd s.heap o.arr (some (bs.set i b')) }, ?_, ?_⟩
    · have : Sparse.setBlockEmptyValue { o.geom with blocks := bs } bc v = _ := hb'
      simp only [setBlockEmptyValue, inPlace, ho, Option.bind_some, hb, this, Option.map_some, Sparse.setBlock, viewOf,
        Int.toNat_natCast]
    · refine I.touch (h' := { h with edited := true, map := h.map.apply zero (.setBlockEmptyValue bc v) }) ho hw
        rfl (fun _ => rfl) rfl rfl rfl rfl
        (fun a ha => upd_ne _ _ ha) (fun _ _ => rfl) (fun _ _ => Iff.rfl) I.nodup ?_ ?_
      · intro k hk hkf
        obtain ⟨f2, o2, ref2, bs2, h1, h2, h3, h4, h5, h6⟩ := I.cacheOk k hk
        have : f2 = f := I.refInj f2 f o2 o k.1 h1 ho h2 hkf
        subst this
        rw [ho] at h1; cases h1
        rw [hb] at h5; cases h5
        exact ⟨ref2, bs.set i b', h3, h4, upd_same _ _ _, by rw [List.length_set]; exact h6⟩
      · refine .backed r ref (bs.set i b') (ib.set i c') hfile hl (upd_same _ _ _) href alive cold load ?_ (by simp [len]) ?_ (by simp)
        · have : viewOf o (ib.set i c') = (viewOf o ib).setBlock (i : Nat) c' := by
            simp only [viewOf, Sparse.setBlock, Int.toNat_natCast]
          rw [this]; exact hrg
        · intro j x y hx hy
          by_cases hj : i = j
          · subst hj
            rw [List.getElem?_set_self hilt2] at hx
            rw [List.getElem?_set_self (show i < ib.length from hilt)] at hy
            cases hx; cases hy
            exact ⟨by rw [n1, hna], by rw [n2, hev], fun _ => n3, fun ha => by rw [n1] at ha; cases ha⟩
          · rw [List.getElem?_set_ne hj] at hx hy
            exact cells j x y hx hy

/-! ## Reading -/

theorem activate_eq {r i fi : Nat} {ref : Ref} {d : List α} {a : Nat} {bs : List (Block α)} {b : Block α}
    (href : s.refs r = some ref) (hfi : ref.fileIdx[i]? = some (Int.ofNat fi))
    (hocc : (occupied (files ref.layer))[fi]? = some d) (harr : ref.arr = some a)
    (hb : s.heap a = some bs) (hbi : bs[i]? = some b) :
    (ref.loaded[i]? = some true → activate files s r i = some s) ∧
    (ref.loaded[i]? = some false → activate files s r i = some
      { s with heap := upd s.heap a (some (bs.set i ⟨true, b.emptyValue, some d⟩))
               refs := upd s.refs r (some { ref with loaded := ref.loaded.set i true })
               cache := s.cache ++ [(r, i)] }) := by
  have h0 : (0 : Int) ≤ Int.ofNat fi := Int.natCast_nonneg fi
  constructor
  · intro hl
    simp only [activate, href, Option.bind_some, hfi, if_pos h0, hl, if_true]
  · intro hl
    simp only [activate, href, Option.bind_some, hfi, if_pos h0, hl, harr, hb, hbi,
      Bool.false_eq_true, if_false]
    rw [show (Int.ofNat fi).toNat = fi from rfl, hocc, Option.map_some]

/-- Reading, with the addresses worked out. -/
theorem read_at {f : Nat} {o : Fld α} {bs : List (Block α)} {p : V3i} {i off : Nat} {b : Block α}
    (ho : s.flds f = some o) (hb : s.heap o.arr = some bs)
    (hid : (viewOf o bs).blockId ((viewOf o bs).blockCoord ((viewOf o bs).offsetCoord p)) = (i : Nat))
    (hoff : Block.offset (viewOf o bs).order ((viewOf o bs).voxelInBlock ((viewOf o bs).offsetCoord p)) = (off : Nat))
    (hbi : bs[i]? = some b) :
    (b.isAllocated = false → read files s f p = some (s, b.emptyValue)) ∧
    (b.isAllocated = true → o.file = none → ∀ v, b.read (off : Nat) = some v → read files s f p = some (s, v)) ∧
    (b.isAllocated = true → ∀ r, o.file = some r → ∀ t bs' b' v, activate files s r i = some t →
      t.heap o.arr = some bs' → bs'[i]? = some b' → b'.read (off : Nat) = some v →
      read files s f p = some (t, v)) := by
  have e : read files s f p = ((viewOf o bs).block? ((viewOf o bs).blockId ((viewOf o bs).blockCoord ((viewOf o bs).offsetCoord p)))).bind
      fun b => if b.isAllocated then
        match o.file with
        | none => (b.read (Block.offset (viewOf o bs).order ((viewOf o bs).voxelInBlock ((viewOf o bs).offsetCoord p)))).map fun v => (s, v)
        | some r =>
          (activate files s r ((viewOf o bs).blockId ((viewOf o bs).blockCoord ((viewOf o bs).offsetCoord p))).toNat).bind
            fun s => (s.heap o.arr).bind fun bs' =>
            ((viewOf o bs').block? ((viewOf o bs).blockId ((viewOf o bs).blockCoord ((viewOf o bs).offsetCoord p)))).bind fun b =>
              (b.read (Block.offset (viewOf o bs).order ((viewOf o bs).voxelInBlock ((viewOf o bs).offsetCoord p)))).map fun v => (s, v)
      else some (s, b.emptyValue) := by
    unfold read
    rw [ho, Option.bind_some, hb, Option.bind_some]
    rfl
  rw [e, hid, hoff]
  have hbl : (viewOf o bs).blocks[i]? = some b := hbi
  rw [Sparse.block?_nat, hbl, Option.bind_some]
  refine ⟨?_, ?_, ?_⟩
  · intro ha; simp [ha]
  · intro ha hf v hv; simp [ha, hf, hv]
  · intro ha r hf t bs' b' v h1 h2 h3 h4
    have hbl' : (viewOf o bs').blocks[i]? = some b' := h3
    simp [ha, hf, h1, h2, Sparse.block?_nat, hbl', h4]

theorem read_ok (I : Inv files s w) (zero : α) (layers : Nat → SparseMap α) {f : Nat} {p : V3i}
    {h : Handle α} (hw : w.fld f = some h) (hp : h.map.dw.contains p = true) :
    ∃ s', read files s f p = some (s', h.map.val p) ∧ Inv files s' (w.apply zero layers (.read f p)) ∧
      (h.lazy = true → h.map.alloc (blockOf h.map.dw h.map.order p) →
        ∃ o r i, s'.flds f = some o ∧ o.file = some r ∧ (r, i) ∈ s'.cache) := by
  obtain ⟨o, ho, k⟩ := I.get hw
  have hwa : w.apply zero layers (.read f p) = w.put f { h with hot := true } := by
    simp only [World.apply, hw]
  rw [hwa]
  have quiet : ∀ (_ : FieldOk files s o { h with hot := true }), Inv files s (w.put f { h with hot := true }) := by
    intro k'
    refine I.touch (h' := { h with hot := true }) ho hw rfl (fun _ => rfl) rfl rfl rfl rfl (fun _ _ => rfl)
      (fun _ _ => rfl) (fun _ _ => Iff.rfl) I.nodup ?_ k'
    intro k hk hkf
    obtain ⟨f2, o2, ref2, bs2, h1, h2, h3, h4, h5, h6⟩ := I.cacheOk k hk
    have : f2 = f := I.refInj f2 f o2 o k.1 h1 ho h2 hkf
    subst this
    rw [ho] at h1; cases h1
    exact ⟨ref2, bs2, h3, h4, h5, h6⟩
  cases k with
  | plain bs hfile hl hb hr =>
    have hp' : (viewOf o bs).dw.contains p = true := by rw [hr.dw]; exact hp
    have hv := hr.value p hp'
    obtain ⟨c, hc, _⟩ := Sparse.get_block hr.wf hp'
    rw [Sparse.value_of_block hr.wf hp' hc] at hv
    refine ⟨s, ?_, quiet (.plain bs hfile hl hb hr), fun hz => by rw [hl] at hz; cases hz⟩
    obtain ⟨r1, r2, _⟩ := read_at (files := files) ho hb (Sparse.id_eq hr.wf hp') (Sparse.off_eq hp') hc
    cases hba : c.isAllocated with
    | true =>
      simp only [Sparse.bval, hba, if_true] at hv
      exact r2 hba hfile _ hv
    | false =>
      simp only [Sparse.bval, hba, Bool.false_eq_true, if_false] at hv
      rw [r1 hba, Option.some.inj hv]
  | backed r ref bs ib hfile hl hb href alive cold load hr len cells same =>
    have hp' : (viewOf o ib).dw.contains p = true := by rw [hr.dw]; exact hp
    have hv := hr.value p hp'
    have hid := Sparse.id_eq hr.wf hp'
    have hoff := Sparse.off_eq hp'
    have hilt := Sparse.idN_lt hr.wf hp'
    obtain ⟨c, hc, _⟩ := Sparse.get_block hr.wf hp'
    rw [Sparse.value_of_block hr.wf hp' hc] at hv
    generalize hi : (viewOf o ib).idN p = i at *
    generalize hof : (viewOf o ib).offN p = off at *
    have hilt2 : i < bs.length := by rw [← len]; exact hilt
    have hbi : bs[i]? = some (bs[i]) := List.getElem?_eq_getElem hilt2
    have cc := cells i _ _ hbi hc
    generalize bs[i] = b at hbi cc
    have hidb : (viewOf o bs).blockId ((viewOf o bs).blockCoord ((viewOf o bs).offsetCoord p)) = (i : Nat) := hid
    have hoffb : Block.offset (viewOf o bs).order ((viewOf o bs).voxelInBlock ((viewOf o bs).offsetCoord p)) = (off : Nat) := hoff
    obtain ⟨r1, _, r3⟩ := read_at (files := files) ho hb hidb hoffb hbi
    have hquiet : FieldOk files s o { h with hot := true } :=
      .backed r ref bs ib hfile hl hb href alive (by simp) load hr len cells same
    cases hba : b.isAllocated with
    | false =>
      refine ⟨s, ?_, quiet hquiet, ?_⟩
      rotate_left
      · intro _ hal
        have hpd : (viewOf o ib).dw.contains p = true := hp'
        rw [← hr.dw, ← hr.order, ← hr.alloc p hpd] at hal
        obtain ⟨x, hx1, hx2⟩ := hal
        rw [hi, hc] at hx1; cases hx1
        rw [← cc.alloc, hba] at hx2; cases hx2
      simp only [Sparse.bval, ← cc.alloc, hba, Bool.false_eq_true, if_false] at hv
      rw [r1 hba, cc.empty, Option.some.inj hv]
    | true =>
      obtain ⟨d, fi, hd, hfi, hocc, harr, hcase⟩ := cc.data hba
      have hv' : d[off]? = some (h.map.val p) := by
        simp only [Sparse.bval, ← cc.alloc, hba, if_true] at hv
        simpa [Block.read, hd] using hv
      have hread : ∀ x : Block α, x.data = some d → x.read ((off : Nat) : Int) = some (h.map.val p) := by
        intro x hx
        simp only [Block.read, hx, Int.natCast_nonneg, if_true, Int.toNat_natCast, hv']
      obtain ⟨a1, a2⟩ := activate_eq (files := files) href hfi hocc harr hb hbi
      rcases hcase with ⟨hld, hbd⟩ | ⟨hld, hbd⟩
      · refine ⟨s, ?_, quiet hquiet, fun _ _ => ⟨o, r, i, ho, hfile, (load i).mp hld⟩⟩
        exact r3 hba r hfile s bs b _ (a1 hld) hb hbi (hread b hbd)
      · refine ⟨{ s with heap := upd s.heap o.arr (some (bs.set i ⟨true, b.emptyValue, some d⟩))
                         refs := upd s.refs r (some { ref with loaded := ref.loaded.set i true })
                         cache := s.cache ++ [(r, i)] }, ?_, ?_, fun _ _ => ⟨o, r, i, ho, hfile, by simp⟩⟩
        · exact r3 hba r hfile _ _ _ _ (a2 hld) (upd_same _ _ _) (List.getElem?_set_self hilt2)
            (hread ⟨true, b.emptyValue, some d⟩ rfl)
        · have hillt : i < ref.loaded.length := (List.getElem?_eq_some_iff.mp hld).1
          have hnot : (r, i) ∉ s.cache := by
            intro hm
            rw [(load i).mpr hm] at hld; cases hld
          refine I.touch (h' := { h with hot := true }) ho hw rfl (fun _ => rfl) rfl rfl rfl rfl
            (fun a ha => upd_ne _ _ ha) ?_ ?_ ?_ ?_ ?_
          · intro x hx
            exact upd_ne _ _ (by rintro rfl; exact hx hfile)
          · intro k hk
            simp only [List.mem_append, List.mem_singleton]
            constructor
            · rintro (h1 | h1)
              · exact h1
              · rw [h1] at hk; exact absurd hfile hk
            · exact .inl
          · exact List.nodup_append.mpr ⟨I.nodup, by simp, by
              intro x hx y hy
              simp only [List.mem_singleton] at hy
              subst hy
              rintro rfl; exact hnot hx⟩
          · intro k hk hkf
            rw [hfile] at hkf
            have hr1 : k.1 = r := (Option.some.inj hkf).symm
            refine ⟨{ ref with loaded := ref.loaded.set i true }, bs.set i ⟨true, b.emptyValue, some d⟩, ?_, harr,
              upd_same _ _ _, ?_⟩
            · show upd s.refs r _ k.1 = _
              rw [hr1, upd_same]
            · rw [List.length_set]
              have hk' : k ∈ s.cache ++ [(r, i)] := hk
              simp only [List.mem_append, List.mem_singleton] at hk'
              rcases hk' with h1 | h1
              · obtain ⟨f2, o2, ref2, bs2, g1, g2, g3, g4, g5, g6⟩ := I.cacheOk k h1
                have : f2 = f := I.refInj f2 f o2 o k.1 g1 ho g2 (by rw [hfile, hr1])
                subst this
                rw [ho] at g1; cases g1
                rw [hb] at g5; cases g5
                exact g6
              · rw [h1]; exact hilt2
          · refine .backed r { ref with loaded := ref.loaded.set i true } (bs.set i ⟨true, b.emptyValue, some d⟩) ib hfile hl
              (upd_same _ _ _) (upd_same _ _ _) alive (by simp) ?_ hr (by rw [List.length_set]; exact len) ?_ same
            · intro j
              simp only [List.mem_append, List.mem_singleton, Prod.mk.injEq, true_and]
              by_cases hj : i = j
              · subst hj
                simp [List.getElem?_set_self hillt]
              · rw [List.getElem?_set_ne hj, load j]
                constructor
                · exact .inl
                · rintro (h1 | h1)
                  · exact h1
                  · exact absurd h1.symm hj
            · intro j x y hx hy
              by_cases hj : i = j
              · subst hj
                rw [List.getElem?_set_self hilt2] at hx
                cases hx
                have : y = c := by
                  have hc' : ib[i]? = some c := hc
                  rw [hc'] at hy; exact (Option.some.inj hy).symm
                subst this
                refine ⟨by rw [← cc.alloc, hba], cc.empty, by simp, fun _ => ⟨d, fi, hd, hfi, hocc, harr, .inl ⟨?_, rfl⟩⟩⟩
                exact List.getElem?_set_self hillt
              · rw [List.getElem?_set_ne hj] at hx
                have c2 := cells j x y hx hy
                refine ⟨c2.alloc, c2.empty, c2.free, fun ha => ?_⟩
                obtain ⟨d', fi', q1, q2, q3, q4, q5⟩ := c2.data ha
                refine ⟨d', fi', q1, q2, q3, q4, ?_⟩
                show (((ref.loaded.set i true)[j]? = some true ∧ _) ∨ ((ref.loaded.set i true)[j]? = some false ∧ _))
                rw [List.getElem?_set_ne hj]
                exact q5

/-! ## Unloading -/

theorem unload_ok (I : Inv files s w) {k : Nat × Nat} (hk : k ∈ s.cache) :
    ∃ t, unload s k.1 k.2 = some t ∧ t.cache = s.cache ∧ (∃ ref, s.refs k.1 = some ref ∧ ref.alive = true) ∧
      Inv files { t with cache := s.cache.erase k } w := by
  obtain ⟨r, i⟩ := k
  obtain ⟨f, o, ref, bs, ho, hfile, href, harr, hb, hilt⟩ := I.cacheOk _ hk
  dsimp only at *
  obtain ⟨h, hw, fk⟩ := I.ghost ho
  cases fk with
  | plain _ hf => rw [hf] at hfile; cases hfile
  | backed r' ref' bs' ib hfile' hl hb' href' alive cold load hr len cells same =>
    rw [hfile] at hfile'; cases hfile'
    rw [href] at href'; cases href'
    rw [hb] at hb'; cases hb'
    have hbi : bs[i]? = some (bs[i]) := List.getElem?_eq_getElem hilt
    generalize bs[i] = b at hbi
    have hld : ref.loaded[i]? = some true := (load i).mpr hk
    have hillt : i < ref.loaded.length := (List.getElem?_eq_some_iff.mp hld).1
    have hmem : ∀ x, x ∈ s.cache.erase (r, i) ↔ x ≠ (r, i) ∧ x ∈ s.cache := fun x => I.nodup.mem_erase_iff
    refine ⟨{ s with heap := upd s.heap o.arr (some (bs.set i b.clear))
                     refs := upd s.refs r (some { ref with loaded := ref.loaded.set i false }) }, ?_, rfl,
      ⟨ref, href, alive⟩, ?_⟩
    · simp only [unload, href, Option.bind_some, harr, hb, hbi, Option.map_some]
    refine I.touch (h' := h) ho hw rfl (fld_self hw) rfl rfl rfl rfl (fun a ha => upd_ne _ _ ha) ?_ ?_ ?_ ?_ ?_
    · intro x hx
      exact upd_ne _ _ (by rintro rfl; exact hx hfile)
    · intro x hx
      show x ∈ s.cache.erase (r, i) ↔ _
      rw [hmem]
      refine ⟨fun y => y.2, fun y => ⟨?_, y⟩⟩
      rintro rfl; exact hx hfile
    · exact I.nodup.erase _
    · intro x hx hxf
      rw [hfile] at hxf
      have hr1 : x.1 = r := (Option.some.inj hxf).symm
      obtain ⟨_, hx2⟩ := (hmem x).mp hx
      refine ⟨{ ref with loaded := ref.loaded.set i false }, bs.set i b.clear, ?_, harr, upd_same _ _ _, ?_⟩
      · show upd s.refs r _ x.1 = _
        rw [hr1, upd_same]
      · rw [List.length_set]
        obtain ⟨f2, o2, ref2, bs2, g1, g2, g3, g4, g5, g6⟩ := I.cacheOk x hx2
        have : f2 = f := I.refInj f2 f o2 o x.1 g1 ho g2 (by rw [hfile, hr1])
        subst this
        rw [ho] at g1; cases g1
        rw [hb] at g5; cases g5
        exact g6
    · refine .backed r { ref with loaded := ref.loaded.set i false } (bs.set i b.clear) ib hfile hl
        (upd_same _ _ _) (upd_same _ _ _) alive ?_ ?_ hr (by rw [List.length_set]; exact len) ?_ same
      · intro hc x hx
        exact cold hc x ((hmem x).mp hx).2
      · intro j
        show _ ↔ (r, j) ∈ s.cache.erase (r, i)
        rw [hmem]
        by_cases hj : i = j
        · subst hj
          simp [List.getElem?_set_self hillt]
        · show (ref.loaded.set i false)[j]? = _ ↔ _
          rw [List.getElem?_set_ne hj, load j]
          exact ⟨fun y => ⟨fun e => hj (Prod.mk.inj e).2.symm, y⟩, fun y => y.2⟩
      · intro j x y hx hy
        by_cases hj : i = j
        · subst hj
          rw [List.getElem?_set_self hilt] at hx
          cases hx
          have c2 := cells i b y hbi hy
          refine ⟨c2.alloc, c2.empty, fun _ => rfl, fun ha => ?_⟩
          obtain ⟨d', fi', q1, q2, q3, q4, q5⟩ := c2.data ha
          exact ⟨d', fi', q1, q2, q3, q4, .inr ⟨List.getElem?_set_self hillt, rfl⟩⟩
        · rw [List.getElem?_set_ne hj] at hx
          have c2 := cells j x y hx hy
          refine ⟨c2.alloc, c2.empty, c2.free, fun ha => ?_⟩
          obtain ⟨d', fi', q1, q2, q3, q4, q5⟩ := c2.data ha
          refine ⟨d', fi', q1, q2, q3, q4, ?_⟩
          show (((ref.loaded.set i false)[j]? = some true ∧ _) ∨ ((ref.loaded.set i false)[j]? = some false ∧ _))
          rw [List.getElem?_set_ne hj]
          exact q5

theorem evict_ok (I : Inv files s w) (k : Nat × Nat) : ∃ s', evict s k = some s' ∧ Inv files s' w := by
  by_cases hk : k ∈ s.cache
  · obtain ⟨t, h1, h2, ⟨ref, h3, h4⟩, h5⟩ := unload_ok I hk
    refine ⟨{ t with cache := s.cache.erase k }, ?_, h5⟩
    simp only [evict, if_pos hk, h3, Option.bind_some, h4, if_true, h1, Option.map_some, h2]
  · exact ⟨s, by simp only [evict, if_neg hk], I⟩

theorem flushLoop_ok (ks : List (Nat × Nat)) : ∀ s : St α, Inv files s w → s.cache = ks →
    ∃ s', flushLoop s ks = some s' ∧ Inv files s' w ∧ s'.cache = [] := by
  induction ks with
  | nil => intro s I hc; exact ⟨s, rfl, I, hc⟩
  | cons k ks ih =>
    intro s I hc
    obtain ⟨t, h1, h2, _, h5⟩ := unload_ok I (k := k) (by rw [hc]; exact List.mem_cons_self)
    have he : s.cache.erase k = ks := by rw [hc, List.erase_cons_head]
    rw [he] at h5
    obtain ⟨s', g1, g2, g3⟩ := ih _ h5 rfl
    exact ⟨s', by simp only [flushLoop, h1, Option.bind_some, g1], g2, g3⟩

theorem flush_ok (I : Inv files s w) (zero : α) (layers : Nat → SparseMap α) :
    ∃ s', flush s = some s' ∧ Inv files s' (w.apply zero layers .flush) ∧ s'.cache = [] := by
  obtain ⟨s', h1, J, h3⟩ := flushLoop_ok s.cache s I rfl
  refine ⟨s', h1, ?_, h3⟩
  refine ⟨J.next, ?_, ?_, J.fBound, J.aBound, J.rBound, J.arrInj, J.refInj, J.cacheOk, J.owned, J.nodup⟩
  · intro f
    simp only [World.apply, Option.map_eq_none_iff]
    exact J.dead f
  · intro f o h ho hh
    simp only [World.apply, Option.map_eq_some_iff] at hh
    obtain ⟨h0, hh0, rfl⟩ := hh
    have k := J.ok f o h0 ho hh0
    cases k with
    | plain bs hfile hl hb hr => exact .plain bs hfile hl hb hr
    | backed r ref bs ib hfile hl hb href alive cold load hr len cells same =>
      exact .backed r ref bs ib hfile hl hb href alive (fun _ k hk => by rw [h3] at hk; cases hk) load hr len cells same

end F3D.Dyn
