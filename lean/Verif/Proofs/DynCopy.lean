import Verif.Proofs.DynSteps

namespace F3D.Dyn
open F3D.Props

variable {α : Type} {files : Nat → Sparse α} {s : St α} {w : World α}

/-! ## Copying -/

theorem copyBlocks_all {N : Nat} (bs : List (Block α)) (h : ∀ b ∈ bs, Sparse.BWF N b) :
    copyBlocks N bs = some bs := by
  induction bs with
  | nil => rfl
  | cons b bs ih =>
    have hb := h b (List.mem_cons_self)
    have : copyBlock N b = some b := by
      obtain ⟨ia, ev, d⟩ := b
      cases ia with
      | true =>
        obtain ⟨d', hd, hl⟩ : ∃ d', d = some d' ∧ d'.length = N := by simpa [Sparse.BWF] using hb
        subst hd
        simp [copyBlock, ← hl]
      | false =>
        have : d = none := by simpa [Sparse.BWF] using hb
        subst this; rfl
    rw [copyBlocks, this, Option.bind_some, ih (fun x hx => h x (List.mem_cons_of_mem _ hx)), Option.map_some]

/-- What `copySparseField` leaves, given that the old table of the target (if any) exists and is not
the table of the source. -/
theorem copySparse_ok (I : Inv files s w) (zero : α) {layers : Nat → SparseMap α}
    (hf : ∀ l, Refines (files l) (layers l)) {f : Nat} {o : Fld α} {h : Handle α}
    (ho : s.flds f = some o) (hw : w.fld f = some h) (hc : World.copyable h)
    (old : Option Nat) (hold : ∀ a, old = some a → s.heap a ≠ none ∧ a ≠ o.arr) :
    ∃ s' o' bs H, copySparse zero s o old = some (s', o') ∧ s'.flds = s.flds ∧ s'.nextF = s.nextF ∧
      s'.nextA = s.nextA + 1 ∧ s.nextR ≤ s'.nextR ∧ s'.heap = upd H s.nextA (some bs) ∧
      (H = match old with | none => s.heap | some a => upd s.heap a none) ∧
      (∀ r, r < s.nextR → s'.refs r = s.refs r) ∧ (∀ r, s'.nextR ≤ r → s'.refs r = none) ∧
      s'.cache = s.cache ∧ o'.arr = s.nextA ∧ (∀ r, o'.file = some r → s.nextR ≤ r) ∧
      FieldOk files s' o' { h with hot := false } := by
  have hcold : ∀ k ∈ s.cache, k.1 ≠ s.nextR := by
    intro k hk he
    obtain ⟨f, o, ref, bs, h1, h2, _⟩ := I.cacheOk k hk
    have := I.ref_lt h1 h2
    omega
  have hfreed : ∃ H, s.freeOld old = some { s with heap := H } ∧
      (H = match old with | none => s.heap | some a => upd s.heap a none) ∧ H o.arr = s.heap o.arr := by
    cases old with
    | none => exact ⟨s.heap, rfl, rfl, rfl⟩
    | some a =>
      obtain ⟨h1, h2⟩ := hold a rfl
      refine ⟨upd s.heap a none, ?_, rfl, upd_ne _ _ (fun e => h2 e.symm)⟩
      simp only [St.freeOld, St.freeArr]
      cases e : s.heap a with
      | none => exact absurd e h1
      | some _ => rfl
  obtain ⟨H, hF, hH, hHo⟩ := hfreed
  have k := I.ok f o h ho hw
  cases k with
  | plain bs hfile hl hb hr =>
    refine ⟨{ s with heap := upd H s.nextA (some bs), nextA := s.nextA + 1 }, ⟨o.geom, s.nextA, none⟩, bs, H,
      ?_, rfl, rfl, rfl, Nat.le_refl _, rfl, hH, fun _ _ => rfl, I.rBound, rfl, rfl, by simp, ?_⟩
    · have hcb : copyBlocks (2 ^ o.geom.order * 2 ^ o.geom.order * 2 ^ o.geom.order) bs = some bs :=
        copyBlocks_all bs hr.wf.blk
      simp only [copySparse, hF, Option.bind_some, hfile]
      rw [hHo, hb, Option.bind_some, hcb]
      rfl
    · exact .plain bs rfl hl (upd_same _ _ _) hr
  | backed r ref bs ib hfile hl hb href alive cold load hr len cells same =>
    obtain ⟨hview, hlen⟩ := setup_view zero (f := viewOf o ib) (g := o.geom) hr.wf hr.fits rfl rfl rfl
    generalize hg : o.geom.setupBlocks zero = g at hview hlen
    have hlen' : g.blocks.length = bs.length := hlen.trans len
    generalize hnb : (bs.map fun b => (⟨b.isAllocated, b.emptyValue, none⟩ : Block α)) = nb
    have hnlen : nb.length = bs.length := by rw [← hnb]; simp
    refine ⟨{ s with heap := upd H s.nextA (some nb), nextA := s.nextA + 1, nextR := s.nextR + 1,
                     refs := upd s.refs s.nextR (some ⟨ref.layer, numberBlocks nb 0,
                       List.replicate g.blocks.length false, some s.nextA, true⟩) },
      ⟨g, s.nextA, some s.nextR⟩, nb, H, ?_, rfl, rfl, rfl, Nat.le_succ _, rfl, hH, ?_, ?_, rfl, rfl, ?_, ?_⟩
    · simp only [copySparse, hF, Option.bind_some, hfile]
      rw [hHo, hb, Option.bind_some]
      rw [href, Option.map_some, hg, if_pos hlen', hnb]
      simp only [setupRef, St.newArr, St.addRef, upd_same, Option.map_some]
      congr 2
      congr 1
      funext x
      by_cases hx : x = s.nextR
      · subst hx; simp
      · rw [upd_ne _ _ hx, upd_ne _ _ hx, upd_ne _ _ hx]
    · intro x hx; exact upd_ne _ _ (by omega)
    · intro x hx
      have hx' : s.nextR + 1 ≤ x := hx
      exact (upd_ne _ _ (by omega)).trans (I.rBound x (by omega))
    · intro x hx; cases hx; exact Nat.le_refl _
    · have hcell : ∀ (i : Nat) (b c : Block α), nb[i]? = some b → ib[i]? = some c →
          b = ⟨c.isAllocated, c.emptyValue, none⟩ := by
        intro i b c hbi hci
        rw [← hnb, List.getElem?_map] at hbi
        cases hbb : bs[i]? with
        | none => rw [hbb] at hbi; cases hbi
        | some b0 =>
          rw [hbb] at hbi; cases hbi
          dsimp only
          have cc := cells i b0 c hbb hci
          rw [cc.alloc, cc.empty]
      refine backed_new (l := ref.layer) (r := s.nextR) (bs := nb) (ib := ib) (fi := numberBlocks nb 0)
        (arr := some s.nextA) (ld := List.replicate g.blocks.length false) rfl hl (upd_same _ _ _)
        (upd_same _ _ _) hcold ?_ ?_ (by rw [hnlen]; exact len) hcell ?_ ?_
      · rw [hlen', hnlen]
      · show Refines ({ g with blocks := (viewOf o ib).blocks } : Sparse α) _
        rw [hview]; exact hr
      · intro i c hci ha
        refine ⟨rfl, ?_⟩
        cases hed : h.edited with
        | false =>
          have hs := same hed
          have hci' : (files ref.layer).blocks[i]? = some c := by rw [← hs]; exact hci
          obtain ⟨d, n, h1, h2, h3⟩ := layer_number (hf ref.layer) hci' ha
          refine ⟨d, n, h1, ?_, h3⟩
          rw [← h2]
          congr 1
          refine numberBlocks_flags ?_ ?_ 0
          · rw [hnlen, ← hs]; exact len.symm
          · intro j b c' hb hc'
            rw [← hs] at hc'
            rw [hcell j b c' hb hc']
        | true =>
          exfalso
          have hi : i < (viewOf o ib).blocks.length := (List.getElem?_eq_some_iff.mp hci).1
          obtain ⟨p, hp, hid⟩ := exists_voxel hr.wf hi
          refine hc hl hed _ ((hr.alloc p hp).mp ⟨c, ?_, ha⟩)
          rw [hid]; exact hci
      · intro hed
        show ({ g with blocks := (viewOf o ib).blocks } : Sparse α) = _
        rw [hview]; exact same hed

theorem copy_ok (I : Inv files s w) (zero : α) (layers : Nat → SparseMap α)
    (hf : ∀ l, Refines (files l) (layers l)) {f : Nat} (hp : w.permits (.copy f)) :
    ∃ s', copy zero s f = some s' ∧ Inv files s' (w.apply zero layers (.copy f)) := by
  obtain ⟨h, hw, hc⟩ := hp
  obtain ⟨o, ho, _⟩ := I.get hw
  obtain ⟨s', o', bs, H, e, e1, e2, e3, e4, e5, e6, e7, e8, e9, e10, e11, ok⟩ :=
    copySparse_ok I zero hf ho hw hc none (by simp)
  refine ⟨{ s' with flds := upd s'.flds s'.nextF (some o'), nextF := s'.nextF + 1 }, ?_, ?_⟩
  · simp only [copy, ho, Option.bind_some, e, Option.map_some]
  simp only at e6
  subst e6
  refine I.place (f := s.nextF) (o' := o') (h' := { h with hot := false }) ?_ ?_ ?_ ?_ ?_ e10 e3 e4 ?_ ?_ e7 e8 e9 ?_ ?_ ?_
  · show upd s'.flds s'.nextF (some o') = _
    rw [e1, e2]
  · intro g; simp only [World.apply, hw, World.push, World.put, I.next]
  · show s'.nextF + 1 = _
    simp only [World.apply, hw, World.push, World.put, I.next, e2]
  · show s.nextF ≤ s'.nextF + 1
    omega
  · show s.nextF < s'.nextF + 1
    omega
  · intro g o2 _ ho2
    show s'.heap o2.arr = _
    rw [e5]; exact upd_ne _ _ (by have := I.arr_lt ho2; omega)
  · intro a ha
    have ha' : s'.heap a ≠ none := ha
    rw [e5] at ha'
    by_cases hx : a = s.nextA
    · exact .inl hx
    · rw [upd_ne _ _ hx] at ha'
      exact .inr ⟨ha', fun o2 ho2 => by rw [I.fBound _ (Nat.le_refl _)] at ho2; cases ho2⟩
  · intro r hr; exact .inl (e11 r hr)
  · intro o2 r ho2; rw [I.fBound _ (Nat.le_refl _)] at ho2; cases ho2
  · exact ok.frame rfl (fun r _ => ⟨rfl, fun _ => Iff.rfl⟩)

theorem World.put_self {f : Nat} {h : Handle α} (hw : w.fld f = some h) : w.put f h = w := by
  obtain ⟨n, fld⟩ := w
  simp only [World.put]
  congr 1
  funext g
  by_cases hg : g = f
  · subst hg; rw [if_pos rfl]; exact hw.symm
  · rw [if_neg hg]

theorem assign_ok (I : Inv files s w) (zero : α) (layers : Nat → SparseMap α)
    (hf : ∀ l, Refines (files l) (layers l)) {d f : Nat} (hp : w.permits (.assign d f)) :
    ∃ s', assign zero s d f = some s' ∧ Inv files s' (w.apply zero layers (.assign d f)) := by
  obtain ⟨t, h, hwd, hw, hc⟩ := hp
  obtain ⟨o, ho, _⟩ := I.get hw
  obtain ⟨od, hod, kd⟩ := I.get hwd
  by_cases hdf : d = f
  · refine ⟨s, ?_, ?_⟩
    · simp only [assign, ho, hod, Option.bind_some, if_pos hdf]
    · have : w.apply zero layers (.assign d f) = w := by simp only [World.apply, hw, if_pos hdf]
      rw [this]; exact I
  obtain ⟨hd, hcp⟩ := hc hdf
  obtain ⟨bd, hbd⟩ := kd.heap
  obtain ⟨s', o', bs, H, e, e1, e2, e3, e4, e5, e6, e7, e8, e9, e10, e11, ok⟩ :=
    copySparse_ok I zero hf ho hw hcp (some od.arr) (by
      intro a ha; cases ha
      exact ⟨by rw [hbd]; simp, fun he => hdf (I.arrInj d f od o hod ho he)⟩)
  have hdlt : d < s.nextF := by
    apply Nat.lt_of_not_le
    intro hle
    rw [I.fBound d hle] at hod; cases hod
  refine ⟨{ s' with flds := upd s'.flds d (some o') }, ?_, ?_⟩
  · simp only [assign, ho, hod, Option.bind_some, if_neg hdf, e, Option.map_some]
  simp only at e6
  subst e6
  refine I.place (f := d) (o' := o') (h' := { h with hot := false }) ?_ ?_ ?_ ?_ ?_ e10 e3 e4 ?_ ?_ e7 e8 e9 ?_ ?_ ?_
  · show upd s'.flds d (some o') = _
    rw [e1]
  · intro g; simp only [World.apply, hw, if_neg hdf, World.put]
  · show s'.nextF = _
    simp only [World.apply, hw, if_neg hdf, World.put, e2, I.next]
  · show s.nextF ≤ s'.nextF
    omega
  · show d < s'.nextF
    omega
  · intro g o2 hg ho2
    show s'.heap o2.arr = _
    rw [e5, upd_ne _ _ (by have := I.arr_lt ho2; omega), upd_ne]
    intro he; exact hg (I.arrInj g d o2 od ho2 hod he)
  · intro a ha
    have ha' : s'.heap a ≠ none := ha
    rw [e5] at ha'
    by_cases hx : a = s.nextA
    · exact .inl hx
    · rw [upd_ne _ _ hx] at ha'
      by_cases hy : a = od.arr
      · subst hy; rw [upd_same] at ha'; exact absurd rfl ha'
      · rw [upd_ne _ _ hy] at ha'
        exact .inr ⟨ha', fun o2 ho2 => by rw [hod] at ho2; cases ho2; exact fun e => hy e.symm⟩
  · intro r hr; exact .inl (e11 r hr)
  · intro o2 r ho2 hr
    rw [hod] at ho2; cases ho2
    exact I.cold hod hwd hd r hr
  · exact ok.frame rfl (fun r _ => ⟨rfl, fun _ => Iff.rfl⟩)

/-! ## Destroying -/

theorem destroy_ok (I : Inv files s w) (zero : α) (layers : Nat → SparseMap α) {f : Nat}
    (hp : w.permits (.destroy f)) :
    ∃ s', destroy s f = some s' ∧ Inv files s' (w.apply zero layers (.destroy f)) := by
  obtain ⟨h, hw⟩ := hp
  obtain ⟨o, ho, k⟩ := I.get hw
  obtain ⟨bs, hb⟩ := k.heap
  have common : ∀ s' : St α, s'.flds = upd s.flds f none → s'.nextF = s.nextF → s'.nextA = s.nextA →
      s'.nextR = s.nextR → s'.heap = upd s.heap o.arr none →
      (∀ r, o.file ≠ some r → s'.refs r = s.refs r) → (∀ r, s.nextR ≤ r → s'.refs r = none) →
      (∀ k, k ∈ s'.cache ↔ k ∈ s.cache ∧ o.file ≠ some k.1) → s'.cache.Nodup →
      Inv files s' (w.apply zero layers (.destroy f)) := by
    intro s' e1 e2 e3 e4 e5 e6 e7 e8 e9
    have oarr : ∀ g o', g ≠ f → s.flds g = some o' → o'.arr ≠ o.arr := by
      intro g o' hg ho' he
      exact hg (I.arrInj g f o' o ho' ho he)
    have ofile : ∀ g o' r, g ≠ f → s.flds g = some o' → o'.file = some r → o.file ≠ some r := by
      intro g o' r hg ho' he he'
      exact hg (I.refInj g f o' o r ho' ho he he')
    have back : ∀ g o', s'.flds g = some o' → g ≠ f ∧ s.flds g = some o' := by
      intro g o' hg
      have hgf : g ≠ f := by
        rintro rfl
        rw [e1, upd_same] at hg; cases hg
      rw [e1, upd_ne _ _ hgf] at hg
      exact ⟨hgf, hg⟩
    refine ⟨by rw [e2, I.next]; rfl, ?_, ?_, ?_, ?_, ?_, ?_, ?_, ?_, ?_, e9⟩
    · intro g
      simp only [World.apply]
      by_cases hg : g = f
      · subst hg; rw [e1]; simp
      · rw [e1, upd_ne _ _ hg, if_neg hg]; exact I.dead g
    · intro g o' h2 hg hh
      obtain ⟨hgf, hg'⟩ := back g o' hg
      simp only [World.apply, if_neg hgf] at hh
      refine (I.ok g o' h2 hg' hh).frame (by rw [e5]; exact upd_ne _ _ (oarr g o' hgf hg')) ?_
      intro r hr
      have hne := ofile g o' r hgf hg' hr
      exact ⟨e6 r hne, fun i => by rw [e8]; exact ⟨fun x => x.1, fun x => ⟨x, hne⟩⟩⟩
    · intro g hg
      rw [e2] at hg
      rw [e1]; unfold upd; split
      · rfl
      · exact I.fBound g hg
    · intro a ha
      rw [e3] at ha
      rw [e5]; unfold upd; split
      · rfl
      · exact I.aBound a ha
    · rw [e4]; exact e7
    · intro g g' o1 o2 h1 h2 he
      exact I.arrInj g g' o1 o2 (back _ _ h1).2 (back _ _ h2).2 he
    · intro g g' o1 o2 r h1 h2 he he'
      exact I.refInj g g' o1 o2 r (back _ _ h1).2 (back _ _ h2).2 he he'
    · intro k hk
      obtain ⟨hk1, hk2⟩ := (e8 k).mp hk
      obtain ⟨g, o', ref, bs, h1, h2, h3, h4, h5, h6⟩ := I.cacheOk k hk1
      have hg : g ≠ f := by
        rintro rfl
        rw [ho] at h1; cases h1; exact hk2 h2
      exact ⟨g, o', ref, bs, by rw [e1, upd_ne _ _ hg]; exact h1, h2, by rw [e6 _ hk2]; exact h3, h4,
        by rw [e5, upd_ne _ _ (oarr g o' hg h1)]; exact h5, h6⟩
    · intro a ha
      rw [e5] at ha
      have hne : a ≠ o.arr := by
        rintro rfl
        rw [upd_same] at ha; exact ha rfl
      rw [upd_ne _ _ hne] at ha
      obtain ⟨g, o', hg, rfl⟩ := I.owned a ha
      have hgf : g ≠ f := by
        rintro rfl
        rw [ho] at hg; cases hg; exact hne rfl
      exact ⟨g, o', by rw [e1, upd_ne _ _ hgf]; exact hg, rfl⟩
  cases hfile : o.file with
  | none =>
    refine ⟨{ s with heap := upd s.heap o.arr none, flds := upd s.flds f none }, ?_, ?_⟩
    · simp only [destroy, ho, Option.bind_some, hfile, St.freeArr, hb, Option.map_some]
    · refine common _ rfl rfl rfl rfl rfl (fun _ _ => rfl) I.rBound ?_ I.nodup
      intro k; rw [hfile]; simp
  | some r =>
    obtain ⟨_, ref, href⟩ := k.file hfile
    refine ⟨{ s with heap := upd s.heap o.arr none, flds := upd s.flds f none,
                     cache := s.cache.filter fun k => decide (k.1 ≠ r),
                     refs := upd s.refs r (some { ref with
                       fileIdx := List.replicate ref.fileIdx.length (-1), loaded := [], alive := false }) }, ?_, ?_⟩
    · simp only [destroy, ho, Option.bind_some, hfile, removeField, href, St.freeArr, hb, Option.map_some]
    · refine common _ rfl rfl rfl rfl rfl ?_ ?_ ?_ ?_
      · intro x hx
        exact upd_ne _ _ (by rintro rfl; exact hx hfile)
      · intro x hx
        have := I.ref_lt ho hfile
        exact (upd_ne _ _ (by omega)).trans (I.rBound x hx)
      · intro k
        simp only [List.mem_filter, decide_eq_true_eq, hfile]
        constructor
        · rintro ⟨a, b⟩; exact ⟨a, fun e => b (Option.some.inj e).symm⟩
        · rintro ⟨a, b⟩; exact ⟨a, fun e => b (by rw [e])⟩
      · exact I.nodup.filter _

end F3D.Dyn
