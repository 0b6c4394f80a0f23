import Verif.Proofs.DynField

namespace F3D.Dyn
open F3D.Props

variable {α : Type} {files : Nat → Sparse α} {s : St α} {w : World α}

/-! ## Making fields -/

theorem create_ok (I : Inv files s w) (zero : α) (layers : Nat → SparseMap α) (e dw : Box3i)
    (hw : SparseWindow dw) :
    Inv files (create zero s e dw) (w.apply zero layers (.create e dw)) := by
  have hr := refines_fresh zero e dw hw
  generalize hg : (Sparse.empty zero).setSize zero e dw = g at hr
  have hc : create zero s e dw =
      { s.newArr g.blocks with flds := upd s.flds s.nextF (some ⟨g, s.nextA, none⟩), nextF := s.nextF + 1 } := by
    simp only [create, hg]
  rw [hc]
  refine I.place (f := s.nextF) (o' := ⟨g, s.nextA, none⟩)
    (h' := ⟨false, false, false, SparseMap.fresh zero e dw⟩) rfl ?_ ?_ (Nat.le_succ _) (Nat.lt_succ_self _) rfl rfl
    (Nat.le_refl _) ?_ ?_ (fun _ _ => rfl) I.rBound rfl ?_ ?_ ?_
  · intro f; simp only [World.apply, World.push, World.put, I.next]
  · simp only [World.apply, World.push, World.put, I.next]
  · intro f o _ ho
    exact upd_ne _ _ (by have := I.arr_lt ho; omega)
  · intro a ha
    by_cases h : a = s.nextA
    · exact .inl h
    · refine .inr ⟨?_, ?_⟩
      · have : upd s.heap s.nextA (some g.blocks) a ≠ none := ha
        rwa [upd_ne _ _ h] at this
      · intro o ho; rw [I.fBound _ (Nat.le_refl _)] at ho; cases ho
  · intro r hr; cases hr
  · intro o r ho; rw [I.fBound _ (Nat.le_refl _)] at ho; cases ho
  · exact .plain g.blocks rfl rfl (upd_same _ _ _) hr

/-- A field over a layer, right after its reference was set up. -/
theorem backed_new {s' : St α} {l r : Nat} {o : Fld α} {bs ib : List (Block α)} {h : Handle α}
    {fi : List Int} {arr : Option Nat} {ld : List Bool}
    (hfile : o.file = some r) (hl : h.lazy = true) (hb : s'.heap o.arr = some bs)
    (href : s'.refs r = some ⟨l, fi, ld, arr, true⟩) (hc : ∀ k ∈ s'.cache, k.1 ≠ r)
    (hld : ld = List.replicate bs.length false)
    (hr : Refines (viewOf o ib) h.map) (len : ib.length = bs.length)
    (hbs : ∀ (i : Nat) (b c : Block α), bs[i]? = some b → ib[i]? = some c →
      b = ⟨c.isAllocated, c.emptyValue, none⟩)
    (hnum : ∀ (i : Nat) (c : Block α), ib[i]? = some c → c.isAllocated = true → arr = some o.arr ∧
      ∃ d n, c.data = some d ∧ fi[i]? = some (Int.ofNat n) ∧ (occupied (files l))[n]? = some d)
    (same : h.edited = false → viewOf o ib = files l) : FieldOk files s' o h := by
  refine .backed r _ bs ib hfile hl hb href rfl (fun _ => hc) ?_ hr len ?_ same
  · intro i
    subst hld
    constructor
    · intro hi
      simp only [List.getElem?_replicate] at hi
      split at hi <;> cases hi
    · intro hi; exact absurd rfl (hc _ hi)
  · intro i b c hbi hci
    have hb' := hbs i b c hbi hci
    subst hb'
    refine ⟨rfl, rfl, fun _ => rfl, ?_⟩
    intro ha
    obtain ⟨h1, d, n, h2, h3, h4⟩ := hnum i c hci ha
    refine ⟨d, n, h2, h3, h4, h1, .inr ⟨?_, rfl⟩⟩
    subst hld
    have hi : i < bs.length := by
      have := List.getElem?_eq_some_iff.mp hbi
      exact this.1
    simp [hi]

theorem layer_number {l : Sparse α} {m : SparseMap α} (hr : Refines l m) {i : Nat} {c : Block α}
    (hc : l.blocks[i]? = some c) (ha : c.isAllocated = true) :
    ∃ d n, c.data = some d ∧ (numberBlocks l.blocks 0)[i]? = some (Int.ofNat n) ∧
      (occupied l)[n]? = some d := by
  have hall : ∀ b ∈ l.blocks, b.isAllocated = true → b.data ≠ none := by
    intro b hb hab hn
    have := hr.wf.blk b hb
    simp only [Sparse.BWF, hab, if_true] at this
    obtain ⟨d, hd, _⟩ := this
    rw [hn] at hd; cases hd
  cases hd : c.data with
  | none => exact absurd hd (hall c (List.mem_of_getElem? hc) ha)
  | some d =>
    obtain ⟨n, h1, h2⟩ := numberBlocks_spec l.blocks 0 i c d hc ha hd hall
    exact ⟨d, n, rfl, by rw [Nat.zero_add] at h1; exact h1, h2⟩

theorem zip_forget (zs : List (Block α)) (bs : List (Block α)) (h : zs.length = bs.length) :
    List.zipWith (fun (b : Block α) (_ : Block α) => ({ b with data := none } : Block α)) bs zs =
      bs.map fun b => { b with data := none } := by
  induction bs generalizing zs with
  | nil => simp
  | cons b bs ih =>
    cases zs with
    | nil => simp at h
    | cons z zs => simp [ih zs (by simpa using h)]

theorem openLayer_ok (I : Inv files s w) (zero : α) (layers : Nat → SparseMap α)
    (hf : ∀ l, Refines (files l) (layers l)) (l : Nat) :
    Inv files (openLayer zero files s l) (w.apply zero layers (.openLayer l)) := by
  have hr := hf l
  obtain ⟨hview, hlen⟩ := setup_view zero (f := files l)
    (g := { (Sparse.empty zero).setSize zero (files l).extents (files l).dw with order := (files l).order })
    hr.wf hr.fits rfl rfl rfl
  generalize hg : ((Sparse.empty zero).setSize zero (files l).extents (files l).dw).setBlockOrder zero (files l).order = g
  have hg' : ({ (Sparse.empty zero).setSize zero (files l).extents (files l).dw with order := (files l).order } : Sparse α).setupBlocks zero = g := hg
  rw [hg'] at hview hlen
  have hz := zip_forget g.blocks (files l).blocks hlen
  generalize hbs : ((files l).blocks.map fun b => ({ b with data := none } : Block α)) = bs at hz
  have hblen : bs.length = (files l).blocks.length := by rw [← hbs]; simp
  have hcell : ∀ (i : Nat) (b c : Block α), bs[i]? = some b → (files l).blocks[i]? = some c →
      b = ⟨c.isAllocated, c.emptyValue, none⟩ := by
    intro i b c hb hc
    rw [← hbs, List.getElem?_map, hc] at hb
    cases hb; rfl
  have hnum : numberBlocks bs 0 = numberBlocks (files l).blocks 0 := by
    rw [← hbs]; exact numberBlocks_congr _ (by intro b; rfl) _ 0
  have hst : openLayer zero files s l =
      { (if occupied (files l) = [] then (s.newArr bs).addRef l g.blocks.length
          else setupRef ((s.newArr bs).addRef l g.blocks.length) s.nextR s.nextA bs) with
        flds := upd s.flds s.nextF (some ⟨g, s.nextA, some s.nextR⟩), nextF := s.nextF + 1 } := by
    simp only [openLayer, hg, hz]
  rw [hst]
  have hcold : ∀ k ∈ s.cache, k.1 ≠ s.nextR := by
    intro k hk he
    obtain ⟨f, o, ref, bs, h1, h2, _⟩ := I.cacheOk k hk
    have := I.ref_lt h1 h2
    omega
  have common : ∀ s' : St α, s'.flds = upd s.flds s.nextF (some ⟨g, s.nextA, some s.nextR⟩) →
      s'.nextF = s.nextF + 1 → s'.nextA = s.nextA + 1 → s'.nextR = s.nextR + 1 →
      s'.heap = upd s.heap s.nextA (some bs) → s'.cache = s.cache →
      (∀ r, r ≠ s.nextR → s'.refs r = s.refs r) →
      FieldOk files s' ⟨g, s.nextA, some s.nextR⟩ ⟨true, false, false, layers l⟩ →
      Inv files s' (w.apply zero layers (.openLayer l)) := by
    intro s' e1 e2 e3 e4 e5 e6 e7 ok
    refine I.place (f := s.nextF) (o' := ⟨g, s.nextA, some s.nextR⟩)
      (h' := ⟨true, false, false, layers l⟩) e1 ?_ ?_ (by omega) (by omega) rfl e3 (by omega)
      ?_ ?_ (fun r h => e7 r (by omega)) ?_ e6 ?_ ?_ ok
    · intro f; simp only [World.apply, World.push, World.put, I.next]
    · rw [e2]; simp only [World.apply, World.push, World.put, I.next]
    · intro f o _ ho
      rw [e5]
      exact upd_ne _ _ (by have := I.arr_lt ho; omega)
    · intro a ha
      by_cases h : a = s.nextA
      · exact .inl h
      · refine .inr ⟨?_, ?_⟩
        · rw [e5, upd_ne _ _ h] at ha; exact ha
        · intro o ho; rw [I.fBound _ (Nat.le_refl _)] at ho; cases ho
    · intro r h
      rw [e4] at h
      rw [e7 r (by omega)]; exact I.rBound r (by omega)
    · intro r h; cases h; exact .inl (Nat.le_refl _)
    · intro o r ho; rw [I.fBound _ (Nat.le_refl _)] at ho; cases ho
  by_cases hocc : occupied (files l) = []
  · rw [if_pos hocc]
    refine common _ rfl rfl rfl rfl rfl rfl (fun r h => upd_ne _ _ h) ?_
    refine backed_new (l := l) (r := s.nextR) (bs := bs) (ib := (files l).blocks) rfl rfl (upd_same _ _ _)
      (upd_same _ _ _) hcold ?_ ?_ hblen.symm hcell ?_ ?_
    · rw [hlen, hblen]
    · show Refines ({ g with blocks := (files l).blocks } : Sparse α) _
      rw [hview]; exact hr
    · intro i c hc ha
      obtain ⟨d, n, _, _, h3⟩ := layer_number hr hc ha
      rw [hocc] at h3; cases h3
    · intro _; exact hview
  · rw [if_neg hocc]
    refine common _ rfl rfl rfl rfl rfl rfl ?_ ?_
    · intro r h
      show upd (upd s.refs s.nextR _) s.nextR _ r = _
      rw [upd_ne _ _ h, upd_ne _ _ h]
    refine backed_new (l := l) (r := s.nextR) (bs := bs) (ib := (files l).blocks)
      (fi := numberBlocks bs 0) (arr := some s.nextA) (ld := List.replicate g.blocks.length false)
      rfl rfl (upd_same _ _ _)
      ?_ hcold ?_ ?_ hblen.symm hcell ?_ ?_
    · show upd (upd s.refs s.nextR _) s.nextR (Option.map _ (upd s.refs s.nextR _ s.nextR)) s.nextR = _
      rw [upd_same, upd_same]; rfl
    · rw [hlen, hblen]
    · show Refines ({ g with blocks := (files l).blocks } : Sparse α) _
      rw [hview]; exact hr
    · intro i c hc ha
      obtain ⟨d, n, h1, h2, h3⟩ := layer_number hr hc ha
      exact ⟨rfl, d, n, h1, by rw [hnum]; exact h2, h3⟩
    · intro _; exact hview

end F3D.Dyn
