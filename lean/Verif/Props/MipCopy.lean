import Verif.Proofs.MipCopy

/-!
# Property C95: MIP fields as objects
-/

namespace F3D.Props
open F3D.MipCopy
open F3D.Spec.MipCopy
variable {α A : Type}

/-- C95: a copy of a MIP field answers every question as the original did: every voxel of every level (a failing load
fails for both), which levels are in memory, the resolutions, the number of levels and of voxels; and the original
and all other MIP fields still show the same voxels. -/
theorem C95_copy (file : A → Option (Lvl α)) (w w' : World α A) (hr : Reached file w) (o : Nat) (a : Ans α)
    (h : step file w (.copy o) = some (w', a)) :
    w'.objs.length = w.objs.length + 1 ∧
    (∀ l v, reads file w' w.objs.length l v = reads file w o l v) ∧
    (∀ l, answer file w' (.loaded w.objs.length l) = answer file w (.loaded o l)) ∧
    (∀ l, answer file w' (.resolution w.objs.length l) = answer file w (.resolution o l)) ∧
    answer file w' (.levels w.objs.length) = answer file w (.levels o) ∧
    answer file w' (.voxels w.objs.length) = answer file w (.voxels o) ∧
    ∀ k, k < w.objs.length → ∀ l v, reads file w' k l v = reads file w k l v := by
  have hw := reached_wf hr
  have hw' := wf_step hw h
  have hsep : Sep (fun k => k < w.objs.length) w.held.length w :=
    ⟨fun k h => h, fun k m _ _ a _ i hi => by rw [List.getElem?_eq_none hi]; simp,
      fun k m _ _ a _ j m' hj hm' => absurd (List.getElem?_eq_some_iff.mp hm').1 hj⟩
  obtain ⟨_, _, hsame, _⟩ := step_spares (file := file) hw hsep (Nat.le_refl _) (show Spares _ _ (.copy o) from trivial) h
  have hall := fun k hk => same_reads hw hw' hsame k hk hk
  simp only [step, Option.bind_eq_some_iff, Option.some.injEq, Prod.mk.injEq] at h
  obtain ⟨m, hm, ⟨h1, m2⟩, hi, rfl, _⟩ := h
  have hg : Good w.heap.length m := by
    rcases hw.objs o m hm with hg | rfl
    · exact hg
    · rw [new_no_init] at hi; cases hi
  obtain ⟨e, hraw, hlen, hact, hres, hnum, hlow, hs⟩ := init_spec hg hi
  have hn : (w.objs ++ [m2])[w.objs.length]? = some m2 := by simp
  refine ⟨by simp, ?_, ?_, ?_, ?_, ?_, hall⟩
  · intro l v
    rw [reads_eq hw, reads_eq hw', hm]
    simp only [hn, Option.bind_some]
    rw [(init_content hg (by intro a ha; simp [Mip.blank] at ha) hi l).2 (by simp [Mip.blank])]
  · intro l
    unfold answer
    simp only [step, hn, hm, Option.bind_some]
    rw [hraw, hg.raw]
    by_cases hl : l < m.fields.length
    · obtain ⟨s1, s2⟩ := hs l hl
      rw [List.getElem?_eq_getElem hl]
      cases hx : m.fields[l] with
      | none =>
        rw [s1 (by rw [List.getElem?_eq_getElem hl, hx])]
        simp [Mip.blank]
      | some x =>
        obtain ⟨b, hb, _⟩ := s2 x (by rw [List.getElem?_eq_getElem hl, hx])
        rw [hb]; rfl
    · have n1 : m2.fields[l]? = none := List.getElem?_eq_none (by omega)
      have n2 : m.fields[l]? = none := List.getElem?_eq_none (by omega)
      rw [n1, n2]; rfl
  · intro l
    unfold answer
    simp only [step, hn, hm, Option.bind_some, hres]
    cases m.res[l]? <;> rfl
  · unfold answer
    simp only [step, hn, hm, Option.bind_some, hnum, Option.map_some]
  · unfold answer
    simp only [step, hn, hm, Option.bind_some, Option.map_some, Option.some.injEq, Ans.num.injEq]
    congr 1
    apply List.ext_getElem?
    intro i
    rw [List.getElem?_map, List.getElem?_map]
    by_cases hl : i < m.fields.length
    · obtain ⟨s1, s2⟩ := hs i hl
      rw [List.getElem?_eq_getElem hl]
      cases hx : m.fields[i] with
      | none =>
        rw [s1 (by rw [List.getElem?_eq_getElem hl, hx])]
        simp [Mip.blank]
      | some x =>
        obtain ⟨b, hb, _, _, hb4⟩ := s2 x (by rw [List.getElem?_eq_getElem hl, hx])
        rw [hb]
        simp only [Option.map_some, Option.bind_some, hb4]
    · have n1 : m2.fields[i]? = none := List.getElem?_eq_none (by omega)
      have n2 : m.fields[i]? = none := List.getElem?_eq_none (by omega)
      rw [n1, n2]; rfl

/-- C95: whatever the program does after copying, as long as it does not set up, clear, assign to, or take levels out of
the copy, the copy shows the same voxels: writes to the original's levels or to fields it was made from are not seen. -/
theorem C95_copy_independent (file : A → Option (Lvl α)) (w w' w'' : World α A) (hr : Reached file w) (o : Nat) (a : Ans α)
    (h : step file w (.copy o) = some (w', a)) (cs : List (Call α A))
    (hc : ∀ c ∈ cs, Spares (fun k => k = w.objs.length) 0 c) (hrun : run file w' cs = some w'') (l : Nat) (v : V3i) :
    reads file w'' w.objs.length l v = reads file w' w.objs.length l v := by
  have hw := reached_wf hr
  have hw' := wf_step hw h
  simp only [step, Option.bind_eq_some_iff, Option.some.injEq, Prod.mk.injEq] at h
  obtain ⟨m, hm, ⟨h1, m2⟩, hi, rfl, _⟩ := h
  have hg : Good w.heap.length m := by
    rcases hw.objs o m hm with hg | rfl
    · exact hg
    · rw [new_no_init] at hi; cases hi
  obtain ⟨_, g2⟩ := init_good hg (by intro a ha; simp [Mip.blank] at ha) hi
  have hfresh : ∀ a, some a ∈ m2.fields → w.heap.length ≤ a := by
    intro a ha
    rcases g2 a ha with h | h
    · simp [Mip.blank] at h
    · exact h
  have hn : (w.objs ++ [m2])[w.objs.length]? = some m2 := by simp
  have hsep : Sep (fun k => k = w.objs.length) 0 ({ w with heap := h1, objs := w.objs ++ [m2] } : World α A) := by
    refine ⟨fun k hk => by simp; omega, ?_, ?_⟩
    · intro k mk hk hmk x hx i _ hbad
      subst hk
      have hmk' : (w.objs ++ [m2])[w.objs.length]? = some mk := hmk
      rw [hn] at hmk'; injection hmk' with hmk'; subst hmk'
      have := hw.held i x hbad
      have := hfresh x hx
      omega
    · intro k mk hk hmk x hx j mj hj hmj hbad
      subst hk
      have hmk' : (w.objs ++ [m2])[w.objs.length]? = some mk := hmk
      rw [hn] at hmk'; injection hmk' with hmk'; subst hmk'
      have hmj' : (w.objs ++ [m2])[j]? = some mj := hmj
      have hjl : j < w.objs.length := by
        have := (List.getElem?_eq_some_iff.mp hmj').1
        simp at this; omega
      rw [List.getElem?_append_left hjl] at hmj'
      have := wf_addr hw hmj' x hbad
      have := hfresh x hx
      omega
  obtain ⟨b1, b2, b3⟩ := run_spares cs _ w'' hw' hsep (Nat.zero_le _) hc hrun
  exact same_reads hw' b1 b3 _ rfl (by simp) l v

/-- C95: and as long as the program changes only the copy, what it makes later and what it takes out of these, the
original and all MIP fields there were show the same voxels. -/
theorem C95_original_independent (file : A → Option (Lvl α)) (w w' w'' : World α A) (hr : Reached file w) (o : Nat)
    (a : Ans α) (h : step file w (.copy o) = some (w', a)) (cs : List (Call α A))
    (hc : ∀ c ∈ cs, Spares (fun k => k < w.objs.length) w.held.length c) (hrun : run file w' cs = some w'')
    (k : Nat) (hk : k < w.objs.length) (l : Nat) (v : V3i) : reads file w'' k l v = reads file w k l v := by
  have hw := reached_wf hr
  have hsep : Sep (fun k => k < w.objs.length) w.held.length w :=
    ⟨fun k h => h, fun k m _ _ a _ i hi => by rw [List.getElem?_eq_none hi]; simp,
      fun k m _ _ a _ j m' hj hm' => absurd (List.getElem?_eq_some_iff.mp hm').1 hj⟩
  obtain ⟨a1, a2, a3, a4⟩ := step_spares (file := file) hw hsep (Nat.le_refl _) (show Spares _ _ (.copy o) from trivial) h
  obtain ⟨b1, b2, b3⟩ := run_spares cs _ w'' a1 a2 a4 hc hrun
  exact same_reads hw b1 (a3.trans b3) k hk hk l v

/-- C95: reading a voxel changes nothing that can be read. -/
theorem C95_reading (file : A → Option (Lvl α)) (w w' : World α A) (hr : Reached file w) (o l : Nat) (v : V3i) (a : Ans α)
    (h : step file w (.value o l v) = some (w', a)) (k l' : Nat) (v' : V3i) :
    reads file w' k l' v' = reads file w k l' v' := by
  have hw := reached_wf hr
  have hsep : Sep (fun k => k < w.objs.length) w.held.length w :=
    ⟨fun k h => h, fun k m _ _ a _ i hi => by rw [List.getElem?_eq_none hi]; simp,
      fun k m _ _ a _ j m' hj hm' => absurd (List.getElem?_eq_some_iff.mp hm').1 hj⟩
  obtain ⟨a1, a2, a3, a4⟩ := step_spares (file := file) hw hsep (Nat.le_refl _) (show Spares _ _ (.value o l v) from trivial) h
  by_cases hk : k < w.objs.length
  · exact same_reads hw a1 a3 k hk hk l' v'
  · rw [reads_eq hw, reads_eq a1]
    have hlen : w'.objs.length = w.objs.length := by
      simp only [step, Option.bind_eq_some_iff] at h
      obtain ⟨⟨w1, b⟩, he, h⟩ := h
      have hw1 : w' = w1 := by
        split at h
        · simp only [Option.bind_eq_some_iff, Option.some.injEq, Prod.mk.injEq] at h
          obtain ⟨_, _, _, _, _, _, h, _⟩ := h
          exact h.symm
        · simp only [Option.some.injEq, Prod.mk.injEq] at h
          exact h.1.symm
      subst hw1
      obtain ⟨m, hm, _, h⟩ := ensure_wf hw he
      rcases h with ⟨a, _, rfl, _⟩ | ⟨a, h1, h2, h3, ⟨_, _, rfl⟩ | ⟨lv, hf, _, rfl⟩⟩ <;> simp
    rw [List.getElem?_eq_none (by omega), List.getElem?_eq_none (by omega)]; rfl

/-- C95: after assigning MIP field `p` to `o`, a level shows what it shows in `p` — except where it is not in memory in
`p` and was in memory in `o`: there it still shows what it showed in `o`. -/
theorem C95_assign (file : A → Option (Lvl α)) (w w' : World α A) (hr : Reached file w) (o p : Nat) (a : Ans α)
    (h : step file w (.assign o p) = some (w', a)) (l : Nat) (v : V3i) :
    answer file w' (.levels o) = answer file w (.levels p) ∧
    answer file w' (.resolution o l) = answer file w (.resolution p l) ∧
    (answer file w (.loaded p l) = some (.flag false) → answer file w (.loaded o l) = some (.flag true) →
      reads file w' o l v = reads file w o l v) ∧
    (¬ (answer file w (.loaded p l) = some (.flag false) ∧ answer file w (.loaded o l) = some (.flag true)) →
      reads file w' o l v = reads file w p l v) := by
  have hw := reached_wf hr
  have hw' := wf_step hw h
  simp only [step, Option.bind_eq_some_iff, Option.some.injEq, Prod.mk.injEq] at h
  obtain ⟨m, hm, rhs, hrh, ⟨h1, m2⟩, hi, rfl, _⟩ := h
  have hg : Good w.heap.length rhs := by
    rcases hw.objs p rhs hrh with hg | rfl
    · exact hg
    · rw [new_no_init] at hi; cases hi
  have ho : o < w.objs.length := (List.getElem?_eq_some_iff.mp hm).1
  have hn : (w.objs.set o m2)[o]? = some m2 := List.getElem?_set_self ho
  obtain ⟨e, hraw, hlen, hact, hres, hnum, hlow, hs⟩ := init_spec hg hi
  have ldP : ∀ b, answer file w (.loaded p l) = some (.flag b) ↔ ∃ r, rhs.fields[l]? = some r ∧ r.isSome = b := by
    intro b
    unfold answer
    simp only [step, hrh, Option.bind_some]
    rw [hg.raw]
    cases rhs.fields[l]? <;> simp
  have ldO : answer file w (.loaded o l) = some (.flag true) ↔ ∃ a, m.fields[l]? = some (some a) := by
    unfold answer
    simp only [step, hm, Option.bind_some]
    rcases hw.objs o m hm with hgo | rfl
    · rw [hgo.raw]
      cases hx : m.fields[l]? with
      | none => simp
      | some r => cases r <;> simp
    · cases l <;> simp [Mip.new]
  have hc := init_content (file := file) hg (wf_addr hw hm) hi l
  refine ⟨?_, ?_, ?_, ?_⟩
  · unfold answer
    simp only [step, hn, hrh, Option.bind_some, hnum, Option.map_some]
  · unfold answer
    simp only [step, hn, hrh, Option.bind_some, hres]
    cases rhs.res[l]? <;> rfl
  · intro hp ho'
    obtain ⟨r, hp1, hp2⟩ := (ldP false).mp hp
    obtain ⟨x, hx⟩ := ldO.mp ho'
    have hrn : r = none := by cases r with
      | none => rfl
      | some _ => simp at hp2
    subst hrn
    rw [reads_eq hw, reads_eq hw', hm]
    simp only [hn, Option.bind_some]
    rw [hc.1 hp1 x hx]
    unfold content
    have hraw' : m.raw = m.fields := by
      rcases hw.objs o m hm with hgo | rfl
      · exact hgo.raw
      · cases l <;> simp [Mip.new] at hx
    rw [hraw', hx]; rfl
  · intro hno
    rw [reads_eq hw, reads_eq hw', hrh]
    simp only [hn, Option.bind_some]
    rw [hc.2]
    rintro ⟨hx, hy⟩
    exact hno ⟨(ldP false).mpr ⟨none, hx, rfl⟩, ldO.mpr hy⟩

/-- C95: a MIP field set up from fields shows their voxels, as they are then read through the pointers of the program. -/
theorem C95_setup (file : A → Option (Lvl α)) (w w' : World α A) (hr : Reached file w) (o : Nat) (hs : List Nat)
    (h : step file w (.setup o hs) = some (w', .done)) :
    answer file w' (.levels o) = some (.num hs.length) ∧
    ∀ l i, hs[l]? = some i → answer file w' (.loaded o l) = some (.flag true) ∧
      ∀ v, reads file w' o l v = answer file w (.peek i v) := by
  have hw := reached_wf hr
  have hw' := wf_step hw h
  simp only [step, Option.bind_eq_some_iff, Option.some.injEq, Prod.mk.injEq] at h
  obtain ⟨m, hm, addrs, h1, exts, h2, rfl, h3⟩ := h
  have ho : o < w.objs.length := (List.getElem?_eq_some_iff.mp hm).1
  have hn : (w.objs.set o (m.setup addrs exts).1)[o]? = some (m.setup addrs exts).1 := List.getElem?_set_self ho
  have hacc : accepts exts = true := by
    cases hx : accepts exts with
    | true => rfl
    | false => simp [Mip.setup, hx] at h3
  have hset : (m.setup addrs exts).1 = ⟨addrs.map some, addrs.map some, m.clear.actions,
      resolutions exts, addrs.length, 0⟩ := by
    unfold Mip.setup; simp [hacc]
  rw [hset] at hn hw' ⊢
  clear hset h3
  have hmap : ∀ (l : Nat) i, hs[l]? = some i → ∃ x, addrs[l]? = some x ∧ w.held[i]? = some x := by
    intro l i hl
    exact mapM_idx _ _ _ h1 l i hl
  refine ⟨?_, ?_⟩
  · unfold answer
    simp only [step, hn, Option.bind_some, Option.map_some]
    rw [(mapM_get _ _ _ h1).1]
  · intro l i hl
    obtain ⟨x, hx, hh⟩ := hmap l i hl
    constructor
    · unfold answer
      simp only [step, hn, Option.bind_some, List.getElem?_map, hx, Option.map_some]
      rfl
    · intro v
      rw [reads_eq hw']
      simp only [hn, Option.bind_some, content, List.getElem?_map, hx, Option.map_some]
      unfold answer
      simp only [step, hh, Option.bind_some]
      cases w.heap[x]? with
      | none => rfl
      | some lv => simp only [Option.map_some, show', Option.bind_some]; cases lv.vals v <;> rfl

/-- C95: a MIP field set up for loading on demand has no level in memory, and each level shows what its action
loads. -/
theorem C95_lazy (file : A → Option (Lvl α)) (w w' : World α A) (hr : Reached file w) (o : Nat) (exts : List Box3i)
    (acts : List A) (h : step file w (.setupLazy o exts acts) = some (w', .done)) :
    answer file w' (.levels o) = some (.num acts.length) ∧ answer file w' (.voxels o) = some (.num 0) ∧
    (∀ l b, exts[l]? = some b → b.isEmpty = false → answer file w' (.resolution o l) = some (.size (b.max - b.min + V3i.all 1))) ∧
    ∀ l a, acts[l]? = some a → answer file w' (.loaded o l) = some (.flag false) ∧
      ∀ v, reads file w' o l v = match file a with
        | none => some .threw
        | some lv => (lv.vals v).map .voxel := by
  have hw := reached_wf hr
  have hw' := wf_step hw h
  simp only [step, Option.bind_eq_some_iff, Option.some.injEq, Prod.mk.injEq] at h
  obtain ⟨m, hm, rfl, h3⟩ := h
  have ho : o < w.objs.length := (List.getElem?_eq_some_iff.mp hm).1
  have hn : (w.objs.set o (m.setupLazy exts acts).1)[o]? = some (m.setupLazy exts acts).1 := List.getElem?_set_self ho
  have hlen : exts.length = acts.length := by
    apply Decidable.byContradiction
    intro hx
    simp [Mip.setupLazy, hx] at h3
  have hacc : accepts exts = true := by
    cases hx : accepts exts with
    | true => rfl
    | false => simp [Mip.setupLazy, hlen, hx] at h3
  have hset : (m.setupLazy exts acts).1 = ⟨List.replicate exts.length none,
      List.replicate exts.length none, acts.map some, resolutions exts, exts.length, 0⟩ := by
    unfold Mip.setupLazy; simp [hacc, hlen]
  rw [hset] at hn hw' ⊢
  clear hset h3
  refine ⟨?_, ?_, ?_, ?_⟩
  · unfold answer
    simp only [step, hn, Option.bind_some, Option.map_some]
    rw [hlen]
  · unfold answer
    simp only [step, hn, Option.bind_some, Option.map_some]
    simp
  · intro l b hb hne
    have hres : (resolutions exts)[l]? = some (b.max - b.min + V3i.all 1) := by
      simp [resolutions, List.getElem?_map, hb, Box3i.size, hne]
    unfold answer
    simp only [step, hn, Option.bind_some, hres, Option.map_some]
  · intro l a hl
    have hll : l < acts.length := (List.getElem?_eq_some_iff.mp hl).1
    have hrep : (List.replicate exts.length (none : Option Nat))[l]? = some none := by
      rw [List.getElem?_replicate, if_pos (by omega)]
    constructor
    · unfold answer
      simp only [step, hn, Option.bind_some, hrep]
      rfl
    · intro v
      rw [reads_eq hw']
      simp only [hn, Option.bind_some, content, hrep, List.getElem?_map, hl, Option.map_some, List.length_replicate]
      rw [if_pos (by omega)]
      simp only [show', Option.bind_some]
      cases file a <;> rfl

/-- C95: a level taken out of a MIP field is the level itself: it shows the same voxels, and a voxel written through the
pointer is then read from the MIP field. -/
theorem C95_level (file : A → Option (Lvl α)) (w w' : World α A) (hr : Reached file w) (o l : Nat)
    (h : step file w (.level o l) = some (w', .done)) :
    (∀ v, answer file w' (.peek w.held.length v) = reads file w o l v) ∧
    ∀ v x w'' a, step file w' (.write w.held.length v x) = some (w'', a) → reads file w'' o l v = some (.voxel x) := by
  have hw := reached_wf hr
  have hw' := wf_step hw h
  simp only [step, Option.bind_eq_some_iff] at h
  obtain ⟨⟨w1, b⟩, he, h⟩ := h
  have hsep : Sep (fun k => k < w.objs.length) w.held.length w :=
    ⟨fun k h => h, fun k m _ _ a _ i hi => by rw [List.getElem?_eq_none hi]; simp,
      fun k m _ _ a _ j m' hj hm' => absurd (List.getElem?_eq_some_iff.mp hm').1 hj⟩
  obtain ⟨a1, a2, a3⟩ := trans_load hw hsep he
  have hheld : w1.held = w.held := by
    obtain ⟨m, hm, _, h⟩ := ensure_wf hw he
    rcases h with ⟨a, _, rfl, _⟩ | ⟨a, h1, h2, h3, ⟨_, _, rfl⟩ | ⟨lv, hf, _, rfl⟩⟩ <;> rfl
  have hobj : o < w.objs.length := by
    obtain ⟨m, hm, _⟩ := ensure_eq he
    exact (List.getElem?_eq_some_iff.mp hm).1
  split at h
  · simp only [Option.bind_eq_some_iff, Option.some.injEq, Prod.mk.injEq] at h
    obtain ⟨x, hx, rfl, _⟩ := h
    have hx0 := hx
    unfold rawAt at hx
    simp only [Option.bind_eq_some_iff, id] at hx
    obtain ⟨m, hm, r, hr', rfl⟩ := hx
    have hheld' : (w1.held ++ [x])[w.held.length]? = some x := by rw [hheld]; simp
    have hxl : x < w1.heap.length := wf_addr a1 hm x (wf_raw a1 hm x (List.mem_of_getElem? hr'))
    constructor
    · intro v
      rw [← same_reads hw a1 a3 o hobj hobj l v, reads_eq a1, hm]
      unfold answer
      simp only [step, hheld', Option.bind_some, content, hr']
      rw [List.getElem?_eq_getElem hxl]
      simp only [Option.map_some, Option.bind_some, show']
      cases w1.heap[x].vals v <;> rfl
    · intro v y w'' a hwr
      have hw'' := wf_step hw' hwr
      simp only [step, Option.bind_eq_some_iff, Option.some.injEq, Prod.mk.injEq] at hwr
      obtain ⟨ad, hi, lv, hlv, z, _, rfl, _⟩ := hwr
      have had : ad = x := by
        have hi' : (w1.held ++ [x])[w.held.length]? = some ad := hi
        rw [hheld'] at hi'; injection hi' with hi'; exact hi'.symm
      subst had
      rw [reads_eq hw'']
      simp only [hm, Option.bind_some, content, hr']
      rw [List.getElem?_set_self hxl]
      simp [show']
  · simp only [Option.some.injEq, Prod.mk.injEq] at h
    exact absurd h.2 (by simp)

/-- C95: a MIP field that was made but never set up, cleared or assigned to says that it has one level, but reading
it, copying it and assigning it to another are undefined behaviour. -/
theorem C95_undefined_before_setup (file : A → Option (Lvl α)) (w w1 w2 : World α A) (hr : Reached file w) (a : Ans α)
    (h : step file w .create = some (w1, a)) (cs : List (Call α A)) (hc : ∀ c ∈ cs, ¬ Prepares w.objs.length c)
    (h2 : run file w1 cs = some w2) :
    answer file w2 (.levels w.objs.length) = some (.num 1) ∧
    answer file w2 (.copy w.objs.length) = none ∧
    (∀ p, answer file w2 (.assign p w.objs.length) = none) ∧
    ∀ l v, reads file w2 w.objs.length l v = none := by
  have hw := reached_wf hr
  have hw1 := wf_step hw h
  have hw2 := wf_run hw1 h2
  simp only [step, Option.some.injEq, Prod.mk.injEq] at h
  obtain ⟨rfl, _⟩ := h
  have hn := run_new w.objs.length cs _ w2 hw1 hc h2 (by simp)
  refine ⟨?_, ?_, ?_, ?_⟩
  · unfold answer
    simp only [step, hn, Option.bind_some, Option.map_some, Mip.new]
  · unfold answer
    simp only [step, hn, Option.bind_some, new_no_init]
    rfl
  · intro p
    unfold answer
    simp only [step, hn, Option.bind_some, new_no_init]
    cases w2.objs[p]? <;> rfl
  · intro l v
    rw [reads_eq hw2, hn]
    simp [content, Mip.new, show']

/-- C95: after a call that sets it up (also if that throws), clears it or assigns to it, a MIP field can always be
copied. -/
theorem C95_copies_after_setup (file : A → Option (Lvl α)) (w w1 w2 : World α A) (hr : Reached file w) (o : Nat)
    (c : Call α A) (hc : Prepares o c) (a : Ans α) (h : step file w c = some (w1, a)) (cs : List (Call α A))
    (h2 : run file w1 cs = some w2) : answer file w2 (.copy o) = some .done := by
  have hw := reached_wf hr
  have hw1 := wf_step hw h
  have hex : ∃ m, w.objs[o]? = some m := by
    cases c <;> simp only [Prepares] at hc
    all_goals
      subst hc
      simp only [step, Option.bind_eq_some_iff] at h
      obtain ⟨m, hm, _⟩ := h
      exact ⟨m, hm⟩
  obtain ⟨m, hm⟩ := hex
  obtain ⟨m1, hm1, h3⟩ := step_obj hw h o m hm
  have hg1 : Good w1.heap.length m1 := by
    rcases h3 with ⟨_, h3⟩ | ⟨h3, _⟩
    · exact absurd hc h3
    · exact h3
  obtain ⟨m2, hm2, hg2⟩ := run_good o cs w1 w2 hw1 h2 m1 hm1 hg1
  obtain ⟨r, hr'⟩ := init_total (m := Mip.blank) hg2
  unfold answer
  simp only [step, hm2, Option.bind_some, hr', Option.map_some]

/-- A level of one voxel. -/
def oneVoxelLevel (x : Nat) : Lvl Nat :=
  ⟨⟨V3i.all 0, V3i.all 0⟩, fun v => if v = V3i.all 0 then some x else none, 1⟩

/-- The file of the samples: an action says the value, action 0 fails. -/
def oneVoxelFile (a : Nat) : Option (Lvl Nat) := if a = 0 then none else some (oneVoxelLevel a)

/-- A program with a MIP field made from a field of value 1, and one whose level, of value 2, is still in its file. -/
def memoryAndFile : List (Call Nat Nat) :=
  [.newField (oneVoxelLevel 1), .create, .setup 0 [0], .create, .setupLazy 1 [⟨V3i.all 0, V3i.all 0⟩] [2]]

/-- C95: assignment is not copying: there are programs in which, after assigning MIP field 1 to MIP field 0, reading the
same voxel gives the value that was in field 0 and not that of field 1. -/
theorem C95_assign_keeps_old_level : ∃ (w w' : World Nat Nat), Reached oneVoxelFile w ∧
    step oneVoxelFile w (.assign 0 1) = some (w', .done) ∧
    reads oneVoxelFile w 1 0 (V3i.all 0) = some (.voxel 2) ∧
    reads oneVoxelFile w' 0 0 (V3i.all 0) = some (.voxel 1) :=
  ⟨_, _, ⟨memoryAndFile, rfl⟩, rfl, rfl, rfl⟩

-- After the program above: copies of both MIP fields, a level taken out, a write through the first pointer.
example : ∃ w w' w'' a, Reached oneVoxelFile w ∧ step oneVoxelFile w (.copy 0) = some (w', a) ∧
    run oneVoxelFile w' [.write 0 (V3i.all 0) 7, .clear 0, .value 1 0 (V3i.all 0)] = some w'' ∧
    reads oneVoxelFile w' 2 0 (V3i.all 0) = some (.voxel 1) ∧ reads oneVoxelFile w'' 2 0 (V3i.all 0) = some (.voxel 1) ∧
    answer oneVoxelFile w'' (.peek 0 (V3i.all 0)) = some (.voxel 7) :=
  ⟨_, _, _, _, ⟨memoryAndFile, rfl⟩, rfl, rfl, rfl, rfl, rfl⟩

example : ∃ w w' a, Reached oneVoxelFile w ∧ step oneVoxelFile w (.copy 1) = some (w', a) ∧
    reads oneVoxelFile w' 2 0 (V3i.all 0) = some (.voxel 2) ∧
    answer oneVoxelFile w' (.loaded 2 0) = some (.flag false) ∧ answer oneVoxelFile w' (.levels 2) = some (.num 1) :=
  ⟨_, _, _, ⟨memoryAndFile, rfl⟩, rfl, rfl, rfl, rfl⟩

example : ∀ c ∈ ([.write 0 (V3i.all 0) 7, .clear 0, .value 1 0 (V3i.all 0)] : List (Call Nat Nat)),
    Spares (fun k => k = 2) 0 c := by
  simp [Spares]

example : ∀ c ∈ ([.level 2 0, .write 1 (V3i.all 0) 7, .clear 2] : List (Call Nat Nat)), Spares (fun k => k < 2) 1 c := by
  simp [Spares]

example : ∃ w w', Reached oneVoxelFile w ∧ step oneVoxelFile w (.level 1 0) = some (w', .done) ∧
    answer oneVoxelFile w' (.peek 1 (V3i.all 0)) = some (.voxel 2) :=
  ⟨_, _, ⟨memoryAndFile, rfl⟩, rfl, rfl⟩

-- A level that cannot be read: every read throws.
example : ∃ w w', Reached oneVoxelFile w ∧
    step oneVoxelFile w (.setupLazy 0 [⟨V3i.all 0, V3i.all 0⟩] [0]) = some (w', .done) ∧
    reads oneVoxelFile w' 0 0 (V3i.all 0) = some .threw :=
  ⟨_, _, ⟨memoryAndFile, rfl⟩, rfl, rfl⟩

-- The default-constructed MIP field.
example : ∃ w, Reached oneVoxelFile w ∧ answer oneVoxelFile w (.levels 2) = some (.num 1) ∧
    answer oneVoxelFile w (.copy 2) = none :=
  ⟨_, ⟨memoryAndFile ++ [.create], rfl⟩, rfl, rfl⟩

end F3D.Props
