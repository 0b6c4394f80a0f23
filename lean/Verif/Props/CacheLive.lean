import Verif.Props.Cache

/-!
# Progress of concurrent readers (C66) and the memory bound for many readers (C25)
-/

namespace F3D.Props

open F3D.Cache

variable {α : Type}

/-! ## Lemmas -/

theorem step_const {file : Key → List α} {s s' : Sys α} (hi : Sys.SInv file s) (e : Event)
    (he : s.step file e = some s') :
    s'.cache.size = s.cache.size ∧ s'.threads.length = s.threads.length ∧
    ((∀ m, e ≠ .setMax m) → s'.cache.maxMem = s.cache.maxMem) ∧
    ((∀ b, e ≠ .setLimit b) → s'.cache.limitOn = s.cache.limitOn) := by
  cases e with
  | setMax m => simp only [Sys.step] at he; cases he; exact ⟨rfl, rfl, fun h => absurd rfl (h m), fun _ => rfl⟩
  | setLimit b => simp only [Sys.step] at he; cases he; exact ⟨rfl, rfl, fun _ => rfl, fun h => absurd rfl (h b)⟩
  | start t k i =>
    simp only [Sys.step] at he
    split at he <;> cases he
    have : (s.cache.incRef k).size = s.cache.size ∧ (s.cache.incRef k).maxMem = s.cache.maxMem ∧
      (s.cache.incRef k).limitOn = s.cache.limitOn := by unfold St.incRef; split <;> simp
    exact ⟨this.1, by simp [Sys.goto], fun _ => this.2.1, fun _ => this.2.2⟩
  | flush =>
    simp only [Sys.step] at he
    split at he <;> cases he
    have hf := St.flush_eq hi.cinv
    exact ⟨by show s.cache.flush.size = _; rw [hf], rfl, fun _ => by show s.cache.flush.maxMem = _; rw [hf],
      fun _ => by show s.cache.flush.limitOn = _; rw [hf]⟩
  | remove fd =>
    simp only [Sys.step] at he
    split at he <;> cases he
    exact ⟨rfl, rfl, fun _ => rfl, fun _ => rfl⟩
  | run t =>
    simp only [Sys.step, Sys.runStep] at he
    split at he <;> try cases he
    · split at he
      · split at he <;> cases he <;> exact ⟨rfl, by simp [Sys.goto], fun _ => rfl, fun _ => rfl⟩
      · cases he; exact ⟨rfl, by simp [Sys.goto], fun _ => rfl, fun _ => rfl⟩
    · split at he <;> cases he; exact ⟨rfl, by simp [Sys.goto], fun _ => rfl, fun _ => rfl⟩
    · split at he <;> cases he
      · obtain ⟨_, e2, _, e4, e5, _⟩ := St.evictIter_const s.cache
        exact ⟨e2, rfl, fun _ => e4, fun _ => e5⟩
      · exact ⟨rfl, by simp [Sys.goto], fun _ => rfl, fun _ => rfl⟩
    · split at he <;> cases he
      rename_i k2 _ _ _
      obtain ⟨_, e2, _, e4, e5⟩ := St.loadLocked_const (file := file) s.cache k2
      exact ⟨e2, by simp [Sys.goto], fun _ => e4, fun _ => e5⟩
    · exact ⟨rfl, by simp [Sys.goto], fun _ => rfl, fun _ => rfl⟩
    · exact ⟨rfl, by simp [Sys.goto], fun _ => rfl, fun _ => rfl⟩
    · rename_i k2 _ _
      have : (s.cache.decRef k2).size = s.cache.size ∧ (s.cache.decRef k2).maxMem = s.cache.maxMem ∧
        (s.cache.decRef k2).limitOn = s.cache.limitOn := by unfold St.decRef; split <;> simp
      exact ⟨this.1, by simp [Sys.goto], fun _ => this.2.1, fun _ => this.2.2⟩

theorem reaches_const {file : Key → List α} {ok : Sys α → Event → Prop} {s₀ s : Sys α}
    (hok : ∀ s e, ok s e → ∀ m, e ≠ .setMax m)
    (h : Reaches file ok s₀ s) (h0 : Sys.SInv file s₀) :
    s.cache.size = s₀.cache.size ∧ s.threads.length = s₀.threads.length ∧ s.cache.maxMem = s₀.cache.maxMem := by
  induction h with
  | refl => exact ⟨rfl, rfl, rfl⟩
  | step e hr ho he ih =>
    obtain ⟨a, b, c, _⟩ := step_const (reaches_inv hr h0) e he
    exact ⟨a.trans ih.1, b.trans ih.2.1, (c (hok _ _ ho)).trans ih.2.2⟩

/-- Thread `t`, run on its own, finishes its read. -/
def Finishes (file : Key → List α) (s : Sys α) (t : Nat) : Prop :=
  ∃ m s', s.exec file (List.replicate m (.run t)) = some s' ∧ s'.threads = s.threads.set t .idle ∧
    s'.lock = none

theorem fin_step {file : Key → List α} {s s1 : Sys α} {t : Nat} (h : s.step file (.run t) = some s1)
    (ht : ∃ pc, s1.threads = s.threads.set t pc) (hf : Finishes file s1 t) : Finishes file s t := by
  obtain ⟨m, s', h1, h2, h3⟩ := hf
  obtain ⟨pc, hpc⟩ := ht
  refine ⟨m + 1, s', ?_, ?_, h3⟩
  · rw [List.replicate_succ, Sys.exec, h]; exact h1
  · rw [h2, hpc, List.set_set]

theorem get_set_self {s : Sys α} {t : Nat} {pc : PC} (h : s.threads[t]? = some pc) (pc' : PC) :
    (s.threads.set t pc')[t]? = some pc' := by
  rw [Sys.get_set h, if_pos rfl]

theorem set_same {l : List PC} {t : Nat} {pc : PC} (h : l[t]? = some pc) : l.set t pc = l := by
  apply List.ext_getElem?
  intro n
  rw [Sys.get_set h]
  split
  · rename_i e; rw [e, h]
  · rfl

theorem fin_unpin {file : Key → List α} {s : Sys α} {t : Nat} {k : Key} {i : Nat} (hl : s.lock = none)
    (ht : s.threads[t]? = some (.at .unpin k i)) : Finishes file s t := by
  refine ⟨1, { s.goto t .idle with cache := s.cache.decRef k }, ?_, rfl, hl⟩
  simp [Sys.exec, Sys.step, Sys.runStep, ht, List.replicate_succ]

theorem fin_read {file : Key → List α} {s : Sys α} {t : Nat} {k : Key} {i : Nat} (hl : s.lock = none)
    (ht : s.threads[t]? = some (.at .read k i)) : Finishes file s t := by
  refine fin_step (s1 := { s.goto t (.at .unpin k i) with
      log := s.log ++ [(k, i, (s.cache.data k).bind (fun d => d[i]?))] }) ?_ ⟨_, rfl⟩ ?_
  · simp [Sys.step, Sys.runStep, ht]
  · exact fin_unpin hl (get_set_self ht _)

theorem fin_mark {file : Key → List α} {s : Sys α} {t : Nat} {k : Key} {i : Nat} (hl : s.lock = none)
    (ht : s.threads[t]? = some (.at .mark k i)) : Finishes file s t := by
  refine fin_step (s1 := { s.goto t (.at .read k i) with
      cache := { s.cache with used := upd s.cache.used k true } }) ?_ ⟨_, rfl⟩ ?_
  · simp [Sys.step, Sys.runStep, ht]
  · exact fin_read hl (get_set_self ht _)

theorem fin_load {file : Key → List α} {s : Sys α} {t : Nat} {k : Key} {i : Nat} (hl : s.lock = none)
    (ht : s.threads[t]? = some (.at .load k i)) : Finishes file s t := by
  refine fin_step (s1 := { s.goto t (.at .mark k i) with cache := s.cache.loadLocked file k }) ?_ ⟨_, rfl⟩ ?_
  · simp [Sys.step, Sys.runStep, ht, hl]
  · exact fin_mark hl (get_set_self ht _)

theorem fin_evict {file : Key → List α} {c c' : St α} {vs : List Key} {n : Nat} {sz : Nat}
    (h : St.Evicts sz c vs n c') : ∀ (s : Sys α) (t : Nat) (k : Key) (i : Nat), s.cache = c →
    s.cache.size k = sz → s.threads[t]? = some (.at .evict k i) → Finishes file s t := by
  induction h with
  | @stop c hc =>
    intro s t k i hs hsz ht
    subst hs
    refine fin_step (s1 := { s.goto t (.at .load k i) with lock := none }) ?_ ⟨_, rfl⟩ ?_
    · simp [Sys.step, Sys.runStep, ht, hsz, hc]
    · exact fin_load rfl (get_set_self ht _)
  | @turn c c' vs n hc _ _ ih =>
    intro s t k i hs hsz ht
    subst hs
    refine fin_step (s1 := { s with cache := s.cache.evictIter }) ?_ ⟨_, (set_same ht).symm⟩ ?_
    · simp [Sys.step, Sys.runStep, ht, hsz, hc]
    · exact ih _ t k i rfl (by rw [← hsz]; exact congrFun (St.evictIter_const s.cache).2.1 k) ht
  | @free c c' vs n _ hc _ _ _ ih =>
    intro s t k i hs hsz ht
    subst hs
    refine fin_step (s1 := { s with cache := s.cache.evictIter }) ?_ ⟨_, (set_same ht).symm⟩ ?_
    · simp [Sys.step, Sys.runStep, ht, hsz, hc]
    · exact ih _ t k i rfl (by rw [← hsz]; exact congrFun (St.evictIter_const s.cache).2.1 k) ht

theorem fin_dealloc {file : Key → List α} {s : Sys α} {t : Nat} {k : Key} {i : Nat} (hl : s.lock = none)
    (he : ∃ vs n c', St.Evicts (s.cache.size k) s.cache vs n c')
    (ht : s.threads[t]? = some (.at .dealloc k i)) : Finishes file s t := by
  obtain ⟨vs, n, c', he⟩ := he
  refine fin_step (s1 := { s.goto t (.at .evict k i) with lock := some t }) ?_ ⟨_, rfl⟩ ?_
  · simp [Sys.step, Sys.runStep, ht, hl]
  · exact fin_evict he _ t k i rfl rfl (get_set_self ht _)

theorem fin_check {file : Key → List α} {s : Sys α} {t : Nat} {k : Key} {i : Nat} (hl : s.lock = none)
    (he : ∃ vs n c', St.Evicts (s.cache.size k) s.cache vs n c')
    (ht : s.threads[t]? = some (.at .check k i)) : Finishes file s t := by
  by_cases h1 : s.cache.stored k = true ∧ s.cache.flag k = false
  · cases h2 : s.cache.limitOn with
    | true =>
      refine fin_step (s1 := s.goto t (.at .dealloc k i)) ?_ ⟨_, rfl⟩ ?_
      · simp [Sys.step, Sys.runStep, ht, h1, h2]
      · exact fin_dealloc hl he (get_set_self ht _)
    | false =>
      refine fin_step (s1 := s.goto t (.at .load k i)) ?_ ⟨_, rfl⟩ ?_
      · simp [Sys.step, Sys.runStep, ht, h1, h2]
      · exact fin_load hl (get_set_self ht _)
  · refine fin_step (s1 := s.goto t (.at .mark k i)) ?_ ⟨_, rfl⟩ ?_
    · simp only [Sys.step, Sys.runStep, ht]; rw [if_neg h1]
    · exact fin_mark hl (get_set_self ht _)

theorem length_le_of_nodup_subset {l : List Key} : ∀ {m : List Key}, l.Nodup → (∀ x ∈ l, x ∈ m) →
    l.length ≤ m.length := by
  induction l with
  | nil => intro m _ _; simp
  | cons a l ih =>
    intro m hn hs
    rw [List.nodup_cons] at hn
    have ha : a ∈ m := hs a (by simp)
    have := ih (m := m.erase a) hn.2 (by
      intro x hx
      have hne : x ≠ a := by intro e; subst e; exact hn.1 hx
      rw [List.mem_erase_of_ne hne]; exact hs x (by simp [hx]))
    rw [List.length_erase_of_mem ha] at this
    have hpos : 0 < m.length := List.length_pos_of_mem ha
    simp; omega

def pcKey : PC → Option Key
  | .idle => none
  | .at _ k _ => some k

theorem total_le_mul {size : Key → Nat} {M : Nat} (hM : ∀ k, size k ≤ M) (l : List Key) :
    St.total size l ≤ l.length * M := by
  induction l with
  | nil => simp [St.total]
  | cons a l ih =>
    rw [St.total_cons]
    have := hM a
    have e : ((a :: l).length : Int) * M = l.length * M + M := by simp [Int.add_mul]
    rw [e]; omega

/-- Room beside the pinned blocks. -/
theorem room {file : Key → List α} {s : Sys α} (hi : Sys.SInv file s) {M : Nat}
    (hM : ∀ k, s.cache.size k ≤ M) (hmem : (s.threads.length + 1) * M ≤ s.cache.maxMem) (k : Key) :
    ∃ vs n c', St.Evicts (s.cache.size k) s.cache vs n c' := by
  apply St.evicts_of_room s.cache.weight s.cache.lead s.cache hi.cinv.nodup hi.cinv.mem_use ?_ rfl rfl
  have hlen : s.cache.pinned.length ≤ s.threads.length := by
    have h1 : s.cache.pinned.length ≤ (s.threads.filterMap pcKey).length := by
      apply length_le_of_nodup_subset
      · exact hi.cinv.nodup.filter _
      · intro x hx
        unfold St.pinned at hx
        rw [List.mem_filter] at hx
        have hr : s.cache.refs x > 0 := by simpa using hx.2
        rw [hi.refs x] at hr
        have : 0 < s.threads.countP (PC.uses x) := by omega
        rw [List.countP_pos_iff] at this
        obtain ⟨pc, hpc, hu⟩ := this
        rw [List.mem_filterMap]
        refine ⟨pc, hpc, ?_⟩
        cases pc with
        | idle => simp [PC.uses] at hu
        | «at» ph k' i => simp [PC.uses] at hu; simp [pcKey, hu]
    have := List.length_filterMap_le pcKey s.threads
    omega
  have h2 := total_le_mul hM s.cache.pinned
  have h3 := hM k
  have h4 : ((s.cache.pinned.length : Int)) * M ≤ s.threads.length * M :=
    Int.mul_le_mul_of_nonneg_right (by omega) (by omega)
  have h5 : ((s.threads.length : Int) + 1) * M = s.threads.length * M + M := by
    rw [Int.add_mul]; omega
  rw [h5] at hmem
  omega

/-- Number of threads inside a read. -/
def busy (s : Sys α) : Nat := s.threads.countP (fun pc => decide (pc ≠ .idle))

theorem busy_drop {s : Sys α} {t : Nat} {pc : PC} (ht : s.threads[t]? = some pc) (hne : pc ≠ .idle) :
    (s.threads.set t .idle).countP (fun pc => decide (pc ≠ .idle)) < busy s := by
  have hl := Sys.lt_of_get ht
  have he : s.threads[t] = pc := by rw [List.getElem?_eq_getElem hl] at ht; simpa using ht
  have hpos : 0 < busy s := List.countP_pos_iff.mpr ⟨pc, List.mem_of_getElem? ht, by simpa using hne⟩
  unfold busy at hpos ⊢
  rw [List.countP_set hl, he]
  generalize s.threads.countP (fun pc => decide (pc ≠ .idle)) = n at hpos ⊢
  simp [hne]
  omega

/-! ## C66 -/

/-- With room for one block more than there are threads, readers cannot lock each other up: from every
reachable state there is a schedule after which every thread has finished its read. -/
theorem C66_no_deadlock_with_room (file : Key → List α) (n : Nat) (stored : Key → Bool)
    (size : Key → Nat) (maxMem : Int) (limitOn : Bool) (M : Nat) (hM : ∀ k, size k ≤ M)
    (hroom : (n + 1) * M ≤ maxMem) (s : Sys α)
    (h : Reaches file limitUntouched (Sys.init n stored size maxMem limitOn) s) :
    ∃ (ts : List Nat) (s' : Sys α), s.exec file (ts.map .run) = some s' ∧ ∀ pc ∈ s'.threads, pc = .idle := by
  have h0 := Sys.inv_init (file := file) n stored size maxMem limitOn
  generalize hb : busy s = b
  induction b using Nat.strongRecOn generalizing s with
  | _ b ih =>
    have hi := reaches_inv h h0
    obtain ⟨c1, c2, c3⟩ := reaches_const (fun _ _ ho => ho.1) h h0
    have hlen : s.threads.length = n := by rw [c2]; simp [Sys.init]
    have hmax : s.cache.maxMem = maxMem := by rw [c3]; rfl
    have hsz : s.cache.size = size := by rw [c1]; rfl
    have hev : ∀ k, ∃ vs n c', St.Evicts (s.cache.size k) s.cache vs n c' := by
      intro k
      apply room hi (M := M)
      · intro x; rw [hsz]; exact hM x
      · rw [hlen, hmax]; exact hroom
    by_cases hall : ∀ pc ∈ s.threads, pc = .idle
    · exact ⟨[], s, rfl, hall⟩
    · -- choose the holder of the mutex, or any busy thread
      have hpick : ∃ (t : Nat) (pc : PC), s.threads[t]? = some pc ∧ pc ≠ .idle ∧
          (s.lock = none ∨ s.lock = some t) := by
        cases hlk : s.lock with
        | none =>
          have : ∃ pc ∈ s.threads, pc ≠ .idle := by simpa using hall
          obtain ⟨pc, hpc, hne⟩ := this
          obtain ⟨t, ht⟩ := List.getElem?_of_mem hpc
          exact ⟨t, pc, ht, hne, Or.inl rfl⟩
        | some t =>
          obtain ⟨k, i, ht⟩ := hi.locked t hlk
          exact ⟨t, _, ht, by simp, Or.inr rfl⟩
      obtain ⟨t, pc, ht, hne, hlk⟩ := hpick
      have hfin : Finishes file s t := by
        cases pc with
        | idle => exact absurd rfl hne
        | «at» ph k i =>
          by_cases hph : ph = .evict
          · subst hph
            obtain ⟨vs, m, c', he⟩ := hev k
            exact fin_evict he s t k i rfl rfl ht
          · have hl : s.lock = none := by
              rcases hlk with hlk | hlk
              · exact hlk
              · obtain ⟨k2, i2, h2⟩ := hi.locked t hlk
                rw [ht] at h2; cases h2; exact absurd rfl hph
            cases ph with
            | evict => exact absurd rfl hph
            | check => exact fin_check hl (hev k) ht
            | dealloc => exact fin_dealloc hl (hev k) ht
            | load => exact fin_load hl ht
            | mark => exact fin_mark hl ht
            | read => exact fin_read hl ht
            | unpin => exact fin_unpin hl ht
      obtain ⟨m, s1, e1, e2, _⟩ := hfin
      have hr1 : Reaches file limitUntouched (Sys.init n stored size maxMem limitOn) s1 := by
        have : ∀ (m : Nat) (u : Sys α), Reaches file limitUntouched (Sys.init n stored size maxMem limitOn) u →
            u.exec file (List.replicate m (.run t)) = some s1 →
            Reaches file limitUntouched (Sys.init n stored size maxMem limitOn) s1 := by
          intro m
          induction m with
          | zero => intro u hu he; simp [Sys.exec] at he; rw [← he]; exact hu
          | succ m ihm =>
            intro u hu he
            rw [List.replicate_succ, Sys.exec] at he
            cases hst : u.step file (.run t) with
            | none => rw [hst] at he; cases he
            | some u1 =>
              rw [hst] at he
              exact ihm u1 (.step _ hu ⟨by simp, by simp⟩ hst) he
        exact this m s h e1
      have hlt : busy s1 < b := by
        rw [← hb]; unfold busy; rw [e2]; exact busy_drop ht hne
      obtain ⟨ts, s', g1, g2⟩ := ih (busy s1) hlt s1 hr1 rfl
      refine ⟨List.replicate m t ++ ts, s', ?_, g2⟩
      rw [List.map_append, List.map_replicate, exec_append, e1]
      exact g1

/-- Without that room readers can lock up for good although each of them only ever holds one block:
there is a reachable state from which, whatever steps, new reads, flushes, field removals or
switching off of the limit are tried, the same two threads never get any further. -/
theorem C66_deadlock : ∃ (file : Key → List Nat) (s : Sys Nat),
    Reaches file limitUntouched (Sys.init 3 (fun _ => true) (fun _ => 8) 8 true) s ∧
    ∀ (es : List Event) (s' : Sys Nat), (∀ e ∈ es, ∀ m, e ≠ .setMax m) → s.exec file es = some s' →
      s'.threads[0]? = some (.at .dealloc ⟨0, 0⟩ 0) ∧ s'.threads[2]? = some (.at .evict ⟨0, 1⟩ 0) := by
  let file : Key → List Nat := fun _ => [4, 5]
  -- thread 0 finds block 0 unloaded and is about to make room; thread 1 loads and reads the block
  -- and is done; thread 2 wants block 1, finds block 0 pinned by thread 0, which waits for its mutex
  let es : List Event := [.start 0 ⟨0, 0⟩ 0, .run 0, .start 1 ⟨0, 0⟩ 0] ++ List.replicate 7 (.run 1) ++
    [.start 2 ⟨0, 1⟩ 0, .run 2, .run 2]
  have hex : ((Sys.init 3 (fun _ => true) (fun _ => 8) 8 true : Sys Nat).exec file es).map
      (fun s => (s.threads, s.lock, s.cache.pre ++ s.cache.post, s.cache.memUse, s.cache.maxMem, s.cache.size ⟨0, 1⟩)) =
      some ([.at .dealloc ⟨0, 0⟩ 0, .idle, .at .evict ⟨0, 1⟩ 0], some 2, [⟨0, 0⟩], 8, 8, 8) := by
    decide +kernel
  rw [Option.map_eq_some_iff] at hex
  obtain ⟨s, h1, h2⟩ := hex
  simp only [Prod.mk.injEq] at h2
  obtain ⟨a1, a2, a3, a4, a5, a6⟩ := h2
  have hr : Reaches file limitUntouched (Sys.init 3 (fun _ => true) (fun _ => 8) 8 true) s := by
    have hgen : ∀ (es : List Event) (u u' : Sys Nat), (∀ e ∈ es, (∀ m, e ≠ .setMax m) ∧ ∀ b, e ≠ .setLimit b) →
        Reaches file limitUntouched (Sys.init 3 (fun _ => true) (fun _ => 8) 8 true) u →
        u.exec file es = some u' →
        Reaches file limitUntouched (Sys.init 3 (fun _ => true) (fun _ => 8) 8 true) u' := by
      intro es
      induction es with
      | nil => intro u u' _ h he; cases he; exact h
      | cons e es ih =>
        intro u u' hne h he
        simp only [Sys.exec, Option.bind_eq_some_iff] at he
        obtain ⟨s1, g1, g2⟩ := he
        exact ih s1 u' (fun x hx => hne x (List.mem_cons_of_mem _ hx)) (.step e h (hne e (by simp)) g1) g2
    refine hgen es _ _ ?_ .refl h1
    intro e he
    simp [es] at he
    rcases he with rfl | rfl | rfl | rfl | rfl | rfl <;> exact ⟨by simp, by simp⟩
  refine ⟨file, s, hr, ?_⟩
  have hi := reaches_inv hr (Sys.inv_init (file := file) _ _ _ _ _)
  have hp : s.cache.path = [⟨0, 0⟩] := by
    have : (s.cache.pre ++ s.cache.post).Perm s.cache.path := List.perm_append_comm
    rw [a3] at this; exact (List.perm_singleton.mp this.symm)
  intro es'
  have main : ∀ (es : List Event) (u u' : Sys Nat), (∀ e ∈ es, ∀ m, e ≠ .setMax m) → Sys.SInv file u →
      u.threads[0]? = some (.at .dealloc ⟨0, 0⟩ 0) → u.threads[2]? = some (.at .evict ⟨0, 1⟩ 0) →
      u.lock = some 2 → u.cache.path = [⟨0, 0⟩] → u.cache.memUse = 8 → u.cache.maxMem = 8 →
      u.cache.size ⟨0, 1⟩ = 8 → u.exec file es = some u' →
      u'.threads[0]? = some (.at .dealloc ⟨0, 0⟩ 0) ∧ u'.threads[2]? = some (.at .evict ⟨0, 1⟩ 0) := by
    intro es
    induction es with
    | nil =>
      intro u u' _ _ b1 b2 _ _ _ _ _ he
      cases he; exact ⟨b1, b2⟩
    | cons e es ih =>
      intro u u' hne hu b1 b2 b3 b4 b5 b6 b7 he
      simp only [Sys.exec, Option.bind_eq_some_iff] at he
      obtain ⟨v, g1, g2⟩ := he
      have hv := Sys.inv_step hu e g1
      have hc := step_const hu e g1
      have hmax : v.cache.maxMem = 8 := by rw [hc.2.2.1 (hne e (by simp))]; exact b6
      have hsize : v.cache.size ⟨0, 1⟩ = 8 := by rw [hc.1]; exact b7
      have fin : ∀ (x0 : v.threads[0]? = some (.at .dealloc ⟨0, 0⟩ 0))
          (x2 : v.threads[2]? = some (.at .evict ⟨0, 1⟩ 0)) (xl : v.lock = some 2)
          (xp : v.cache.path = [⟨0, 0⟩]) (xm : v.cache.memUse = 8),
          u'.threads[0]? = some (.at .dealloc ⟨0, 0⟩ 0) ∧ u'.threads[2]? = some (.at .evict ⟨0, 1⟩ 0) :=
        fun x0 x2 xl xp xm => ih v u' (fun x hx => hne x (List.mem_cons_of_mem _ hx)) hv x0 x2 xl xp xm
          hmax hsize g2
      have hset : ∀ (t : Nat) (pc pc' : PC), u.threads[t]? = some pc → t ≠ 0 → t ≠ 2 →
          (u.threads.set t pc')[0]? = some (.at .dealloc ⟨0, 0⟩ 0) ∧
          (u.threads.set t pc')[2]? = some (.at .evict ⟨0, 1⟩ 0) := by
        intro t pc pc' ht h0 h2
        rw [Sys.get_set ht, Sys.get_set ht, if_neg (Ne.symm h0), if_neg (Ne.symm h2)]
        exact ⟨b1, b2⟩
      cases e with
      | setMax m => exact absurd rfl (hne _ (by simp) m)
      | setLimit b =>
        simp only [Sys.step] at g1
        cases g1
        exact fin b1 b2 b3 b4 b5
      | flush => simp [Sys.step, b3] at g1
      | remove fd => simp [Sys.step, b3] at g1
      | start t k i =>
        simp only [Sys.step] at g1
        split at g1
        · rename_i hg
          have ht0 : t ≠ 0 := by intro e; subst e; rw [b1] at hg; cases hg.1
          have ht2 : t ≠ 2 := by intro e; subst e; rw [b2] at hg; cases hg.1
          obtain ⟨p1, p2⟩ := hset t _ (.at .check k i) hg.1 ht0 ht2
          cases g1
          have hinc : (u.cache.incRef k).path = u.cache.path ∧ (u.cache.incRef k).memUse = u.cache.memUse := by
            unfold St.incRef; split <;> exact ⟨rfl, rfl⟩
          exact fin p1 p2 b3 (hinc.1.trans b4) (hinc.2.trans b5)
        · cases g1
      | run t =>
        by_cases ht0 : t = 0
        · subst ht0; simp [Sys.step, Sys.runStep, b1, b3] at g1
        by_cases ht2 : t = 2
        · subst ht2
          have hpin : u.cache.refs ⟨0, 0⟩ > 0 := Sys.users_pos hu b1
          have hcond : u.cache.evictCond (u.cache.size ⟨0, 1⟩) = true := by
            rw [St.evictCond_iff, b4, b5, b6, b7]; simp
          simp only [Sys.step, Sys.runStep, b2, hcond, if_true] at g1
          cases g1
          obtain ⟨p, q, ev, hq⟩ := St.evictIter_pinned b4 hpin
          refine fin b1 b2 b3 ?_ ?_
          · show u.cache.evictIter.path = _; rw [ev]; exact hq
          · show u.cache.evictIter.memUse = _; rw [ev]; exact b5
        · simp only [Sys.step, Sys.runStep] at g1
          split at g1
          · cases g1
          · cases g1
          · rename_i k i ht
            split at g1
            · split at g1 <;> cases g1
              · obtain ⟨p1, p2⟩ := hset t _ (.at .dealloc k i) ht ht0 ht2
                exact fin p1 p2 b3 b4 b5
              · obtain ⟨p1, p2⟩ := hset t _ (.at .load k i) ht ht0 ht2
                exact fin p1 p2 b3 b4 b5
            · cases g1
              obtain ⟨p1, p2⟩ := hset t _ (.at .mark k i) ht ht0 ht2
              exact fin p1 p2 b3 b4 b5
          · rw [if_neg (by rw [b3]; simp)] at g1; cases g1
          · rename_i k i ht
            have := hu.evicting t k i ht
            rw [b3] at this; cases this; exact absurd rfl ht2
          · rw [if_neg (by rw [b3]; simp)] at g1; cases g1
          · rename_i k i ht
            cases g1
            obtain ⟨p1, p2⟩ := hset t _ (.at .read k i) ht ht0 ht2
            exact fin p1 p2 b3 b4 b5
          · rename_i k i ht
            cases g1
            obtain ⟨p1, p2⟩ := hset t _ (.at .unpin k i) ht ht0 ht2
            exact fin p1 p2 b3 b4 b5
          · rename_i k i ht
            cases g1
            obtain ⟨p1, p2⟩ := hset t _ .idle ht ht0 ht2
            have hdec : (u.cache.decRef k).path = u.cache.path ∧ (u.cache.decRef k).memUse = u.cache.memUse := by
              unfold St.decRef; split <;> exact ⟨rfl, rfl⟩
            exact fin p1 p2 b3 (hdec.1.trans b4) (hdec.2.trans b5)
  intro s' hne he
  exact main es' s s' hne hi (by rw [a1]; rfl) (by rw [a1]; rfl) a2 hp a4 a5 a6 he

/-! ## C25 for many readers -/

/-- Size of the block a thread is about to load, having made room for it. -/
def loading (size : Key → Nat) : PC → Int
  | .at .load k _ => size k
  | _ => 0

def loadSum (size : Key → Nat) (l : List PC) : Int := (l.map (loading size)).sum

theorem loadSum_set {size : Key → Nat} {l : List PC} {t : Nat} {pc : PC} (h : l[t]? = some pc) (pc' : PC) :
    loadSum size (l.set t pc') = loadSum size l - loading size pc + loading size pc' := by
  induction l generalizing t with
  | nil => simp at h
  | cons a l ih =>
    cases t with
    | zero =>
      simp at h; subst h
      simp [loadSum]; omega
    | succ t =>
      simp at h
      have := ih h
      simp [loadSum] at this ⊢
      omega

theorem loading_bounds {size : Key → Nat} {M : Nat} (hM : ∀ k, size k ≤ M) (pc : PC) :
    0 ≤ loading size pc ∧ loading size pc ≤ M := by
  unfold loading
  split
  · rename_i k _; have := hM k; omega
  · omega

theorem loadSum_le {size : Key → Nat} {M : Nat} (hM : ∀ k, size k ≤ M) (l : List PC) :
    loadSum size l ≤ l.length * M := by
  induction l with
  | nil => simp [loadSum]
  | cons a l ih =>
    have := (loading_bounds hM a).2
    have e : ((a :: l).length : Int) * M = l.length * M + M := by simp [Int.add_mul]
    rw [e]
    have e2 : loadSum size (a :: l) = loading size a + loadSum size l := by simp [loadSum]
    rw [e2]; omega

theorem loadSum_nonneg {size : Key → Nat} (l : List PC) : 0 ≤ loadSum size l := by
  induction l with
  | nil => simp [loadSum]
  | cons a l ih =>
    have e2 : loadSum size (a :: l) = loading size a + loadSum size l := by simp [loadSum]
    have : 0 ≤ loading size a := by unfold loading; split <;> omega
    rw [e2]; omega

/-- Memory in use together with the loads that have been granted. -/
theorem granted_bound {file : Key → List α} {stored : Key → Bool} {size : Key → Nat}
    {maxMem : Int} {n M : Nat} (hM : ∀ k, size k ≤ M) (h0 : 0 ≤ maxMem) (hn : 0 < n) {s : Sys α}
    (h : Reaches file limitUntouched (Sys.init n stored size maxMem true) s) :
    s.cache.memUse + loadSum size s.threads ≤ max maxMem M + (n - 1) * M := by
  have hi0 := Sys.inv_init (file := file) n stored size maxMem true
  induction h with
  | refl =>
    have : loadSum size (List.replicate n PC.idle) = 0 := by
      unfold loadSum; rw [List.map_replicate]; simp [loading]
    show (0 : Int) + loadSum size (List.replicate n PC.idle) ≤ _
    rw [this]
    have : (0 : Int) ≤ (n - 1) * M := Int.mul_nonneg (by omega) (by omega)
    omega
  | @step s s' e hr hok he ih =>
    have hi := reaches_inv hr hi0
    have hconst := reaches_const (fun _ _ ho => ho.1) hr hi0
    have hsz : s.cache.size = size := hconst.1
    have hlen : s.threads.length = n := by rw [hconst.2.1]; simp [Sys.init]
    have hmax : s.cache.maxMem = maxMem := hconst.2.2
    have hlim : s.cache.limitOn = true := by
      clear ih he hok hconst hsz hlen hmax hi
      induction hr with
      | refl => rfl
      | step e hr' hok' he' ih' =>
        rw [(step_const (reaches_inv hr' hi0) e he').2.2.2 hok'.2]; exact ih'
    cases e with
    | setMax m => exact absurd rfl (hok.1 m)
    | setLimit b => exact absurd rfl (hok.2 b)
    | start t k i =>
      simp only [Sys.step] at he
      split at he
      · rename_i hg
        cases he
        have hmu : (s.cache.incRef k).memUse = s.cache.memUse := by unfold St.incRef; split <;> rfl
        show (s.cache.incRef k).memUse + loadSum size (s.threads.set t _) ≤ _
        rw [hmu, loadSum_set hg.1]
        simp only [loading]; omega
      · cases he
    | flush =>
      simp only [Sys.step] at he
      split at he <;> cases he
      show s.cache.flush.memUse + _ ≤ _
      rw [St.flush_eq hi.cinv]
      have : 0 ≤ s.cache.memUse := by rw [hi.cinv.mem_use]; exact St.total_nonneg _ _
      show 0 + loadSum size s.threads ≤ _
      omega
    | remove fd =>
      simp only [Sys.step] at he
      split at he <;> cases he
      show s.cache.memUse - St.total s.cache.size _ + loadSum size s.threads ≤ _
      have := St.total_nonneg s.cache.size ((s.cache.pre ++ s.cache.post).filter (fun k => decide (k.field = fd)))
      omega
    | run t =>
      simp only [Sys.step, Sys.runStep] at he
      split at he
      · cases he
      · cases he
      · rename_i k i ht
        split at he
        · cases he
          show s.cache.memUse + loadSum size (s.threads.set t _) ≤ _
          rw [loadSum_set ht]; simp only [loading]; omega
        · cases he
          show s.cache.memUse + loadSum size (s.threads.set t _) ≤ _
          rw [loadSum_set ht]; simp only [loading]; omega
      · rename_i k i ht
        split at he
        · cases he
          show s.cache.memUse + loadSum size (s.threads.set t _) ≤ _
          rw [loadSum_set ht]; simp only [loading]; omega
        · cases he
      · rename_i k i ht
        split at he
        · cases he
          show s.cache.evictIter.memUse + loadSum size s.threads ≤ _
          have := St.evictIter_memUse_le s.cache
          omega
        · rename_i hc
          cases he
          show s.cache.memUse + loadSum size (s.threads.set t (.at .load k i)) ≤ _
          have e1 := loadSum_set (size := size) ht (.at .load k i)
          -- the other threads
          have e2 := loadSum_set (size := size) ht (.at .evict k i)
          have hl := Sys.lt_of_get ht
          have hothers : loadSum size s.threads ≤ ((n : Int) - 1) * M := by
            have hgen : ∀ (l : List PC) (t : Nat), l[t]? = some (.at .evict k i) →
                loadSum size l ≤ ((l.length : Int) - 1) * M := by
              intro l
              induction l with
              | nil => intro t h; simp at h
              | cons a l ih2 =>
                intro t h
                have e3 : loadSum size (a :: l) = loading size a + loadSum size l := by simp [loadSum]
                have e4 : (((a :: l).length : Int) - 1) * M = l.length * M := by
                  rw [List.length_cons]; congr 1; omega
                rw [e3, e4]
                cases t with
                | zero =>
                  simp at h; subst h
                  have := loadSum_le hM l
                  simp only [loading]; omega
                | succ t =>
                  simp at h
                  have := ih2 t h
                  have h5 := (loading_bounds hM a).2
                  rw [Int.sub_mul] at this
                  omega
            have := hgen s.threads t ht
            rwa [hlen] at this
          rw [e1]
          simp only [loading]
          have hsk : (size k : Int) ≤ M := by have := hM k; omega
          by_cases hp : s.cache.path = []
          · have : s.cache.memUse = 0 := by rw [hi.cinv.mem_use, hp]; simp [St.total]
            omega
          · have hcc : ¬ s.cache.evictCond (s.cache.size k) = true := hc
            rw [St.evictCond_iff] at hcc
            have := not_and.mp hcc hp
            rw [hsz, hmax] at this
            omega
      · rename_i k i ht
        split at he
        · cases he
          show (s.cache.loadLocked file k).memUse + loadSum size (s.threads.set t _) ≤ _
          have hmu : (s.cache.loadLocked file k).memUse ≤ s.cache.memUse + size k := by
            cases hf : s.cache.flag k with
            | true => rw [St.loadLocked_of_flag hf]; omega
            | false => rw [St.loadLocked_eq hf]; simp [hsz]
          rw [loadSum_set ht]; simp only [loading]; omega
        · cases he
      · rename_i k i ht
        cases he
        show s.cache.memUse + loadSum size (s.threads.set t _) ≤ _
        rw [loadSum_set ht]; simp only [loading]; omega
      · rename_i k i ht
        cases he
        show s.cache.memUse + loadSum size (s.threads.set t _) ≤ _
        rw [loadSum_set ht]; simp only [loading]; omega
      · rename_i k i ht
        cases he
        have hmu : (s.cache.decRef k).memUse = s.cache.memUse := by unfold St.decRef; split <;> rfl
        show (s.cache.decRef k).memUse + loadSum size (s.threads.set t _) ≤ _
        rw [hmu, loadSum_set ht]; simp only [loading]; omega

/-- With `n` readers and blocks of at most `M` bytes the limit is exceeded by at most one block for each
further reader (or by the part of a block that is larger than the limit). -/
theorem C25_many_readers_bound (file : Key → List α) (stored : Key → Bool) (size : Key → Nat)
    (maxMem : Int) (n M : Nat) (hM : ∀ k, size k ≤ M) (h0 : 0 ≤ maxMem) (hn : 0 < n) (s : Sys α)
    (h : Reaches file limitUntouched (Sys.init n stored size maxMem true) s) :
    s.cache.memUse ≤ max maxMem M + (n - 1) * M := by
  have h1 := granted_bound hM h0 hn h
  have h2 := loadSum_nonneg (size := size) s.threads
  omega

/-- The bound is met: two readers, room for one block, two blocks loaded. -/
theorem C25_many_readers_bound_tight : ∃ (file : Key → List Nat) (s : Sys Nat),
    Reaches file limitUntouched (Sys.init 2 (fun _ => true) (fun _ => 8) 8 true) s ∧ s.cache.memUse = 16 := by
  let file : Key → List Nat := fun _ => [4, 5]
  let es : List Event := [.start 0 ⟨0, 0⟩ 0, .run 0, .run 0, .run 0, .start 1 ⟨0, 1⟩ 0, .run 1, .run 1, .run 1,
    .run 0, .run 1]
  have hex : ((Sys.init 2 (fun _ => true) (fun _ => 8) 8 true : Sys Nat).exec file es).map
      (fun s => s.cache.memUse) = some 16 := by decide +kernel
  rw [Option.map_eq_some_iff] at hex
  obtain ⟨s, h1, h2⟩ := hex
  refine ⟨file, s, ?_, h2⟩
  have hgen : ∀ (es : List Event) (u u' : Sys Nat), (∀ e ∈ es, (∀ m, e ≠ .setMax m) ∧ ∀ b, e ≠ .setLimit b) →
      Reaches file limitUntouched (Sys.init 2 (fun _ => true) (fun _ => 8) 8 true) u →
      u.exec file es = some u' →
      Reaches file limitUntouched (Sys.init 2 (fun _ => true) (fun _ => 8) 8 true) u' := by
    intro es
    induction es with
    | nil => intro u u' _ h he; cases he; exact h
    | cons e es ih =>
      intro u u' hne h he
      simp only [Sys.exec, Option.bind_eq_some_iff] at he
      obtain ⟨s1, g1, g2⟩ := he
      exact ih s1 u' (fun x hx => hne x (List.mem_cons_of_mem _ hx)) (.step e h (hne e (by simp)) g1) g2
  refine hgen es _ _ ?_ .refl h1
  intro e he
  simp [es] at he
  rcases he with rfl | rfl | rfl | rfl | rfl | rfl <;> exact ⟨by simp, by simp⟩

end F3D.Props
