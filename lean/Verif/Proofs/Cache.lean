import Verif.Model.Cache

namespace F3D.Cache

theorem upd_same {β : Type} (f : Key → β) (k : Key) (v : β) : upd f k v k = v := by simp [upd]
theorem upd_ne {β : Type} (f : Key → β) {k x : Key} (v : β) (h : x ≠ k) : upd f k v x = f x := by
  simp [upd, h]

namespace St
variable {α : Type}

/-- The cached blocks in the order in which the hand meets them. -/
def path (c : St α) : List Key := c.post ++ c.pre

/-- Total size of a list of blocks. -/
def total (size : Key → Nat) (l : List Key) : Int := (l.map (fun k => (size k : Int))).sum

theorem total_append (size : Key → Nat) (a b : List Key) : total size (a ++ b) = total size a + total size b := by
  simp [total]

theorem total_cons (size : Key → Nat) (a : Key) (b : List Key) : total size (a :: b) = size a + total size b := by
  simp [total]

theorem total_nonneg (size : Key → Nat) (a : List Key) : 0 ≤ total size a := by
  induction a with
  | nil => simp [total]
  | cons k l ih => rw [total_cons]; omega

theorem total_perm {size : Key → Nat} {a b : List Key} (h : a.Perm b) : total size a = total size b := by
  induction h with
  | nil => rfl
  | cons x _ ih => simp only [total_cons, ih]
  | swap x y l => simp only [total_cons]; omega
  | trans _ _ ih1 ih2 => rw [ih1, ih2]

structure CInv (file : Key → List α) (c : St α) : Prop where
  nodup : c.path.Nodup
  mem : ∀ k, k ∈ c.path ↔ c.flag k = true
  data : ∀ k, c.data k = if c.flag k then some (file k) else none
  mem_use : c.memUse = total c.size c.path

theorem evictIter_pinned {c : St α} {k : Key} {rest : List Key} (h : c.path = k :: rest)
    (hr : c.refs k > 0) :
    ∃ p q, c.evictIter = { c with pre := p, post := q } ∧ q ++ p = rest ++ [k] := by
  unfold path at h
  unfold evictIter
  cases hp : c.post with
  | nil =>
    rw [hp] at h; simp only [List.nil_append] at h
    simp only [h, hr, if_true]
    exact ⟨[] ++ [k], rest, rfl, by simp⟩
  | cons a b =>
    rw [hp] at h; simp only [List.cons_append, List.cons.injEq] at h
    obtain ⟨rfl, rfl⟩ := h
    simp only [hp, hr, if_true]
    exact ⟨c.pre ++ [a], b, rfl, by simp⟩

theorem evictIter_used {c : St α} {k : Key} {rest : List Key} (h : c.path = k :: rest)
    (hr : ¬ c.refs k > 0) (hu : c.used k = true) :
    ∃ p q, c.evictIter = { c with used := upd c.used k false, pre := p, post := q } ∧
      q ++ p = rest ++ [k] := by
  unfold path at h
  unfold evictIter
  cases hp : c.post with
  | nil =>
    rw [hp] at h; simp only [List.nil_append] at h
    simp only [h, hr, hu, if_true, if_false]
    exact ⟨[] ++ [k], rest, rfl, by simp⟩
  | cons a b =>
    rw [hp] at h; simp only [List.cons_append, List.cons.injEq] at h
    obtain ⟨rfl, rfl⟩ := h
    simp only [hp, hr, hu, if_true, if_false]
    exact ⟨c.pre ++ [a], b, rfl, by simp⟩

theorem evictIter_free {c : St α} {k : Key} {rest : List Key} (h : c.path = k :: rest)
    (hr : ¬ c.refs k > 0) (hu : c.used k = false) :
    ∃ p q, c.evictIter = { c.unload k with memUse := c.memUse - c.size k, pre := p, post := q } ∧
      q ++ p = rest := by
  unfold path at h
  unfold evictIter
  cases hp : c.post with
  | nil =>
    rw [hp] at h; simp only [List.nil_append] at h
    simp only [h, hr, hu, if_false, unload]
    exact ⟨[], rest, rfl, by simp⟩
  | cons a b =>
    rw [hp] at h; simp only [List.cons_append, List.cons.injEq] at h
    obtain ⟨rfl, rfl⟩ := h
    simp only [hp, hr, hu, if_false, unload]
    exact ⟨c.pre, b, rfl, rfl⟩

theorem evictIter_nil {c : St α} (h : c.path = []) : c.evictIter = c := by
  unfold path at h
  obtain ⟨h1, h2⟩ := List.append_eq_nil_iff.mp h
  unfold evictIter
  cases c
  simp only at h1 h2
  subst h1 h2
  rfl

theorem path_unload_eq {c : St α} {k : Key} {m : Int} {p q : List Key} :
    ({ c.unload k with memUse := m, pre := p, post := q } : St α).path = q ++ p := rfl

theorem CInv.evict {file : Key → List α} {c : St α} (h : CInv file c) : CInv file c.evictIter := by
  cases hp : c.path with
  | nil => rw [evictIter_nil hp]; exact h
  | cons k rest =>
    have hperm : (rest ++ [k]).Perm c.path := by
      rw [hp]; exact List.perm_append_comm
    by_cases hr : c.refs k > 0
    · obtain ⟨p, q, e, hq⟩ := evictIter_pinned hp hr
      rw [e]
      refine ⟨?_, ?_, h.data, ?_⟩
      · show (q ++ p).Nodup; rw [hq]; exact hperm.nodup_iff.mpr h.nodup
      · intro x; show x ∈ q ++ p ↔ _; rw [hq, hperm.mem_iff]; exact h.mem x
      · show c.memUse = total c.size (q ++ p); rw [hq, total_perm hperm]; exact h.mem_use
    · cases hu : c.used k with
      | true =>
        obtain ⟨p, q, e, hq⟩ := evictIter_used hp hr hu
        rw [e]
        refine ⟨?_, ?_, h.data, ?_⟩
        · show (q ++ p).Nodup; rw [hq]; exact hperm.nodup_iff.mpr h.nodup
        · intro x; show x ∈ q ++ p ↔ _; rw [hq, hperm.mem_iff]; exact h.mem x
        · show c.memUse = total c.size (q ++ p); rw [hq, total_perm hperm]; exact h.mem_use
      | false =>
        obtain ⟨p, q, e, hq⟩ := evictIter_free hp hr hu
        rw [e]
        have hnd := h.nodup
        rw [hp, List.nodup_cons] at hnd
        refine ⟨?_, ?_, ?_, ?_⟩
        · show (q ++ p).Nodup; rw [hq]; exact hnd.2
        · intro x
          show x ∈ q ++ p ↔ upd c.flag k false x = true
          rw [hq]
          by_cases hx : x = k
          · subst hx; rw [upd_same]; simp [hnd.1]
          · rw [upd_ne _ _ hx, ← h.mem x, hp]; simp [hx]
        · intro x
          show upd c.data k none x = if upd c.flag k false x then _ else _
          by_cases hx : x = k
          · subst hx; simp [upd_same]
          · rw [upd_ne _ _ hx, upd_ne _ _ hx]; exact h.data x
        · show c.memUse - c.size k = total c.size (q ++ p)
          rw [hq, h.mem_use, hp, total_cons]; omega

/-- What an iteration leaves alone. -/
theorem evictIter_const (c : St α) : c.evictIter.refs = c.refs ∧ c.evictIter.size = c.size ∧
    c.evictIter.stored = c.stored ∧ c.evictIter.maxMem = c.maxMem ∧ c.evictIter.limitOn = c.limitOn ∧
    c.evictIter.loads = c.loads := by
  cases hp : c.path with
  | nil => rw [evictIter_nil hp]; simp
  | cons k rest =>
    by_cases hr : c.refs k > 0
    · obtain ⟨p, q, e, _⟩ := evictIter_pinned hp hr
      rw [e]; simp
    · cases hu : c.used k with
      | true => obtain ⟨p, q, e, _⟩ := evictIter_used hp hr hu; rw [e]; simp
      | false => obtain ⟨p, q, e, _⟩ := evictIter_free hp hr hu; rw [e]; simp [unload]

/-- A pinned block stays loaded. -/
theorem evictIter_keeps {c : St α} {k : Key} (hr : c.refs k > 0) :
    c.evictIter.flag k = c.flag k ∧ c.evictIter.data k = c.data k := by
  cases hp : c.path with
  | nil => rw [evictIter_nil hp]; simp
  | cons k' rest =>
    by_cases hr' : c.refs k' > 0
    · obtain ⟨p, q, e, _⟩ := evictIter_pinned hp hr'
      rw [e]; simp
    · cases hu : c.used k' with
      | true => obtain ⟨p, q, e, _⟩ := evictIter_used hp hr' hu; rw [e]; simp
      | false =>
        obtain ⟨p, q, e, _⟩ := evictIter_free hp hr' hu
        rw [e]
        have : k ≠ k' := by intro h; subst h; exact hr' hr
        simp only [unload]
        exact ⟨upd_ne _ _ this, upd_ne _ _ this⟩

theorem evictIter_memUse_le (c : St α) : c.evictIter.memUse ≤ c.memUse := by
  cases hp : c.path with
  | nil => rw [evictIter_nil hp]; omega
  | cons k rest =>
    by_cases hr : c.refs k > 0
    · obtain ⟨p, q, e, _⟩ := evictIter_pinned hp hr
      rw [e]; simp
    · cases hu : c.used k with
      | true => obtain ⟨p, q, e, _⟩ := evictIter_used hp hr hu; rw [e]; simp
      | false => obtain ⟨p, q, e, _⟩ := evictIter_free hp hr hu; rw [e]; simp; omega

theorem evictCond_iff {c : St α} {n : Nat} :
    c.evictCond n = true ↔ c.path ≠ [] ∧ c.maxMem - c.memUse < n := by
  unfold evictCond path
  simp only [decide_eq_true_eq]
  constructor
  · rintro ⟨h1, h2⟩; refine ⟨?_, h2⟩; intro h
    obtain ⟨a, b⟩ := List.append_eq_nil_iff.mp h
    exact h1 (by rw [a, b]; rfl)
  · rintro ⟨h1, h2⟩; refine ⟨?_, h2⟩; intro h
    obtain ⟨a, b⟩ := List.append_eq_nil_iff.mp h
    exact h1 (by rw [a, b]; rfl)

theorem addToCache_eq (c : St α) (k : Key) : c.addToCache k = { c with pre := c.pre ++ [k] } := by
  unfold addToCache; split <;> rfl

theorem loadLocked_of_flag {file : Key → List α} {c : St α} {k : Key} (h : c.flag k = true) :
    c.loadLocked file k = c := by unfold loadLocked; rw [if_pos h]

theorem loadLocked_eq {file : Key → List α} {c : St α} {k : Key} (h : c.flag k = false) :
    c.loadLocked file k = { c with
      data := upd c.data k (some (file k)), flag := upd c.flag k true,
      loads := upd c.loads k (c.loads k + 1), pre := c.pre ++ [k], memUse := c.memUse + c.size k } := by
  unfold loadLocked
  rw [if_neg (by simp [h])]
  simp only [addToCache_eq, loadBlock]

theorem loadLocked_flag {file : Key → List α} {c : St α} (k : Key) :
    (c.loadLocked file k).flag k = true := by
  cases h : c.flag k with
  | true => rw [loadLocked_of_flag h, h]
  | false => rw [loadLocked_eq h]; exact upd_same _ _ _

theorem loadLocked_mono {file : Key → List α} {c : St α} (k : Key) {x : Key} (hx : c.flag x = true) :
    (c.loadLocked file k).flag x = true := by
  cases h : c.flag k with
  | true => rw [loadLocked_of_flag h, hx]
  | false =>
    rw [loadLocked_eq h]
    show upd c.flag k true x = true
    unfold upd; split <;> simp [hx]

theorem loadLocked_const {file : Key → List α} (c : St α) (k : Key) :
    (c.loadLocked file k).refs = c.refs ∧ (c.loadLocked file k).size = c.size ∧
    (c.loadLocked file k).stored = c.stored ∧ (c.loadLocked file k).maxMem = c.maxMem ∧
    (c.loadLocked file k).limitOn = c.limitOn := by
  cases h : c.flag k with
  | true => rw [loadLocked_of_flag h]; simp
  | false => rw [loadLocked_eq h]; simp

theorem CInv.load {file : Key → List α} {c : St α} (h : CInv file c) (k : Key) :
    CInv file (c.loadLocked file k) := by
  cases hf : c.flag k with
  | true => rw [loadLocked_of_flag hf]; exact h
  | false =>
    rw [loadLocked_eq hf]
    have hk : k ∉ c.path := by rw [h.mem]; simp [hf]
    have hp : ({ c with
        data := upd c.data k (some (file k)), flag := upd c.flag k true,
        loads := upd c.loads k (c.loads k + 1), pre := c.pre ++ [k],
        memUse := c.memUse + c.size k } : St α).path = c.path ++ [k] := by
      simp [path]
    refine ⟨?_, ?_, ?_, ?_⟩
    · rw [hp, List.nodup_append]
      refine ⟨h.nodup, by simp, ?_⟩
      intro a ha b hb; simp at hb; subst hb; intro e; subst e; exact hk ha
    · intro x
      rw [hp]
      show _ ↔ upd c.flag k true x = true
      by_cases hx : x = k
      · subst hx; simp [upd_same]
      · rw [upd_ne _ _ hx, ← h.mem]; simp [hx]
    · intro x
      show upd c.data k (some (file k)) x = if upd c.flag k true x then _ else _
      by_cases hx : x = k
      · subst hx; simp [upd_same]
      · rw [upd_ne _ _ hx, upd_ne _ _ hx]; exact h.data x
    · rw [hp, total_append]
      show c.memUse + c.size k = total c.size c.path + total c.size [k]
      rw [h.mem_use]; simp [total]

/-- The fold of `flushCache`. -/
theorem flush_fold (l : List Key) : ∀ c : St α,
    l.foldl flushOne c = { c with
      flag := fun k => if k ∈ l then false else c.flag k
      data := fun k => if k ∈ l then none else c.data k
      memUse := c.memUse - total c.size l } := by
  induction l with
  | nil => intro c; simp [total]
  | cons a l ih =>
    intro c
    rw [List.foldl_cons, ih]
    simp only [flushOne, unload, total_cons]
    congr 1
    · funext k
      by_cases h1 : k ∈ l
      · simp [h1]
      · by_cases h2 : k = a
        · subst h2; simp [h1, upd_same]
        · simp [h1, h2, upd_ne _ _ h2]
    · funext k
      by_cases h1 : k ∈ l
      · simp [h1]
      · by_cases h2 : k = a
        · subst h2; simp [h1, upd_same]
        · simp [h1, h2, upd_ne _ _ h2]
    · omega

theorem mem_list {c : St α} {k : Key} : k ∈ c.pre ++ c.post ↔ k ∈ c.path := by
  unfold path; simp [or_comm]

theorem flush_eq {file : Key → List α} {c : St α} (h : CInv file c) :
    c.flush = { c with flag := fun _ => false, data := fun _ => none, memUse := 0, pre := [], post := [] } := by
  unfold flush
  rw [flush_fold]
  simp only
  have hm : total c.size (c.pre ++ c.post) = c.memUse := by
    rw [h.mem_use]; exact total_perm List.perm_append_comm
  congr 1
  · funext k
    simp only [mem_list]
    split
    · rfl
    · rename_i hk; rw [h.mem] at hk; simpa using hk
  · funext k
    simp only [mem_list]
    split
    · rfl
    · rename_i hk; rw [h.mem] at hk; rw [h.data]; simp [hk]
  · show c.memUse - total c.size (c.pre ++ c.post) = 0
    rw [hm]; omega

theorem CInv.flush {file : Key → List α} {c : St α} (h : CInv file c) : CInv file c.flush := by
  rw [flush_eq h]
  exact ⟨by simp [path], by intro k; simp [path], by intro k; simp, by simp [path, total]⟩

theorem total_filter (size : Key → Nat) (p : Key → Bool) (l : List Key) :
    total size l = total size (l.filter p) + total size (l.filter (fun k => !p k)) := by
  induction l with
  | nil => simp [total]
  | cons a l ih =>
    cases hp : p a <;> simp only [List.filter_cons, hp, Bool.not_false, Bool.not_true, if_true,
      if_false, Bool.false_eq_true, total_cons, ih] <;> omega

theorem CInv.remove {file : Key → List α} {c : St α} (h : CInv file c) (fd : Nat) :
    CInv file (c.removeField fd) := by
  have hp : (c.removeField fd).path = c.path.filter (fun k => !decide (k.field = fd)) := by
    simp [path, removeField]
  refine ⟨?_, ?_, ?_, ?_⟩
  · rw [hp]; exact h.nodup.filter _
  · intro k
    rw [hp]
    show _ ↔ (if k.field = fd then false else c.flag k) = true
    rw [List.mem_filter, h.mem]
    by_cases hk : k.field = fd <;> simp [hk]
  · intro k
    show (if k.field = fd then none else c.data k) = if (if k.field = fd then false else c.flag k) then _ else _
    by_cases hk : k.field = fd
    · simp [hk]
    · simp only [hk, if_false]; exact h.data k
  · rw [hp]
    show c.memUse - total c.size ((c.pre ++ c.post).filter fun k => decide (k.field = fd)) = _
    have e : total c.size ((c.pre ++ c.post).filter fun k => decide (k.field = fd)) =
        total c.size (c.path.filter fun k => decide (k.field = fd)) :=
      total_perm (List.perm_append_comm.filter _)
    rw [e, h.mem_use, total_filter c.size (fun k => decide (k.field = fd)) c.path]
    show _ = total c.size _
    omega

theorem CInv.init {file : Key → List α} (stored : Key → Bool) (size : Key → Nat) (m : Int) (b : Bool) :
    CInv file (init stored size m b : St α) :=
  ⟨by simp [path, St.init], by intro k; simp [path, St.init], by intro k; simp [St.init],
    by simp [path, St.init, total]⟩

end St

/-! ## Threads -/

/-- The thread is between pinning and unpinning block `k`. -/
def PC.uses (k : Key) : PC → Bool
  | .idle => false
  | .at _ k' _ => decide (k' = k)

namespace Sys
variable {α : Type}

structure SInv (file : Key → List α) (s : Sys α) : Prop where
  cinv : s.cache.CInv file
  refs : ∀ k, s.cache.refs k = (s.threads.countP (PC.uses k) : Nat)
  keys : ∀ (t : Nat) ph k i, s.threads[t]? = some (.at ph k i) → s.cache.stored k = true
  locked : ∀ t : Nat, s.lock = some t → ∃ k i, s.threads[t]? = some (.at .evict k i)
  evicting : ∀ (t : Nat) k i, s.threads[t]? = some (.at .evict k i) → s.lock = some t

theorem lt_of_get {l : List PC} {t : Nat} {pc : PC} (h : l[t]? = some pc) : t < l.length := by
  rcases Nat.lt_or_ge t l.length with h' | h'
  · exact h'
  · rw [List.getElem?_eq_none h'] at h; cases h

theorem get_set {l : List PC} {t : Nat} {pc pc' : PC} (h : l[t]? = some pc) (t' : Nat) :
    (l.set t pc')[t']? = if t' = t then some pc' else l[t']? := by
  rw [List.getElem?_set]
  have := lt_of_get h
  by_cases he : t = t'
  · subst he; simp [this]
  · simp [he, Ne.symm he]

/-- Number of users after a change of one thread. -/
theorem count_set {l : List PC} {t : Nat} {pc pc' : PC} (h : l[t]? = some pc) (k : Key) :
    (((l.set t pc').countP (PC.uses k) : Nat) : Int) =
      l.countP (PC.uses k) - (if pc.uses k then 1 else 0) + (if pc'.uses k then 1 else 0) := by
  have hl := lt_of_get h
  have he : l[t] = pc := by rw [List.getElem?_eq_getElem hl] at h; simpa using h
  have hpos : (if pc.uses k then 1 else 0) ≤ l.countP (PC.uses k) := by
    split
    · rename_i hu
      exact List.countP_pos_iff.mpr ⟨pc, List.mem_of_getElem? h, hu⟩
    · omega
  rw [List.countP_set hl, he]
  generalize l.countP (PC.uses k) = n at hpos
  cases h1 : pc.uses k <;> cases h2 : pc'.uses k <;> simp [h1] at hpos ⊢ <;> omega

theorem users_pos {file : Key → List α} {s : Sys α} (h : SInv file s) {t : Nat} {ph : Phase} {k : Key} {i : Nat}
    (ht : s.threads[t]? = some (.at ph k i)) : s.cache.refs k > 0 := by
  rw [h.refs k]
  have : 0 < s.threads.countP (PC.uses k) :=
    List.countP_pos_iff.mpr ⟨_, List.mem_of_getElem? ht, by simp [PC.uses]⟩
  omega

/-- Threads that stay on the same block. -/
theorem inv_goto {file : Key → List α} {s : Sys α} (h : SInv file s) {t : Nat} {ph ph' : Phase} {k : Key}
    {i : Nat} (ht : s.threads[t]? = some (.at ph k i)) (c' : St α) (l' : Option Nat)
    (hc : c'.CInv file) (hr : c'.refs = s.cache.refs) (hs : c'.stored = s.cache.stored)
    (hl : (ph ≠ .evict ∧ ph' ≠ .evict ∧ l' = s.lock) ∨
      (ph = .dealloc ∧ ph' = .evict ∧ s.lock = none ∧ l' = some t) ∨
      (ph = .evict ∧ ph' ≠ .evict ∧ l' = none)) (g : List (Key × Nat × Option α)) :
    SInv file ⟨c', l', s.threads.set t (.at ph' k i), g⟩ := by
  refine ⟨hc, ?_, ?_, ?_, ?_⟩
  · intro x
    show c'.refs x = (((s.threads.set t _).countP _ : Nat) : Int)
    rw [hr, h.refs x, count_set ht]
    by_cases hx : k = x <;> simp [PC.uses, hx]
  · intro t' ph2 k2 i2 h2
    simp only at h2
    rw [get_set ht] at h2
    rw [hs]
    split at h2
    · simp only [Option.some.injEq, PC.at.injEq] at h2
      obtain ⟨_, rfl, _⟩ := h2
      exact h.keys _ _ _ _ ht
    · exact h.keys _ _ _ _ h2
  · intro t' hl'
    simp only at hl' ⊢
    rw [get_set ht]
    rcases hl with ⟨h1, h2, h3⟩ | ⟨h1, h2, h3, h4⟩ | ⟨h1, h2, h3⟩
    · rw [h3] at hl'
      obtain ⟨k2, i2, h4⟩ := h.locked _ hl'
      by_cases he : t' = t
      · subst he; rw [ht] at h4; cases h4; exact absurd rfl h1
      · rw [if_neg he]; exact ⟨k2, i2, h4⟩
    · rw [h4] at hl'; cases hl'
      rw [if_pos rfl, h2]; exact ⟨k, i, rfl⟩
    · rw [h3] at hl'; cases hl'
  · intro t' k2 i2 h2
    simp only at h2 ⊢
    rw [get_set ht] at h2
    rcases hl with ⟨h1, h2', h3⟩ | ⟨h1, h2', h3, h4⟩ | ⟨h1, h2', h3⟩
    · rw [h3]
      by_cases he : t' = t
      · rw [if_pos he] at h2; cases h2; exact absurd rfl h2'
      · rw [if_neg he] at h2; exact h.evicting _ _ _ h2
    · by_cases he : t' = t
      · rw [h4, he]
      · rw [if_neg he] at h2
        have := h.evicting _ _ _ h2
        rw [h3] at this; cases this
    · by_cases he : t' = t
      · rw [if_pos he] at h2; cases h2; exact absurd rfl h2'
      · rw [if_neg he] at h2
        have a := h.evicting _ _ _ h2
        have b := h.evicting t k i (by rw [ht, h1])
        rw [a] at b; cases b; exact absurd rfl he

theorem CInv_used {file : Key → List α} {c : St α} (h : c.CInv file) (u : Key → Bool) :
    St.CInv file { c with used := u } := ⟨h.nodup, h.mem, h.data, h.mem_use⟩

theorem CInv_refs {file : Key → List α} {c : St α} (h : c.CInv file) (u : Key → Int) :
    St.CInv file { c with refs := u } := ⟨h.nodup, h.mem, h.data, h.mem_use⟩

theorem inv_run {file : Key → List α} {s s' : Sys α} (h : SInv file s) (t : Nat)
    (hs : s.runStep file t = some s') : SInv file s' := by
  unfold runStep at hs
  split at hs
  · cases hs
  · cases hs
  · rename_i k i ht
    split at hs
    · split at hs
      · cases hs
        exact inv_goto h ht _ _ h.cinv rfl rfl (Or.inl ⟨by simp, by simp, rfl⟩) _
      · cases hs
        exact inv_goto h ht _ _ h.cinv rfl rfl (Or.inl ⟨by simp, by simp, rfl⟩) _
    · cases hs
      exact inv_goto h ht _ _ h.cinv rfl rfl (Or.inl ⟨by simp, by simp, rfl⟩) _
  · rename_i k i ht
    split at hs
    · rename_i hl
      cases hs
      exact inv_goto h ht _ _ h.cinv rfl rfl (Or.inr (Or.inl ⟨rfl, rfl, hl, rfl⟩)) _
    · cases hs
  · rename_i k i ht
    split at hs
    · cases hs
      obtain ⟨e1, e2, e3, _⟩ := St.evictIter_const s.cache
      refine ⟨h.cinv.evict, ?_, ?_, h.locked, h.evicting⟩
      · intro x; show s.cache.evictIter.refs x = _; rw [e1]; exact h.refs x
      · intro t' ph k2 i2 h2
        show s.cache.evictIter.stored k2 = true
        rw [e3]; exact h.keys _ _ _ _ h2
    · cases hs
      exact inv_goto h ht _ _ h.cinv rfl rfl (Or.inr (Or.inr ⟨rfl, by simp, rfl⟩)) _
  · rename_i k i ht
    split at hs
    · rename_i hl
      cases hs
      obtain ⟨e1, e2, e3, _⟩ := St.loadLocked_const (file := file) s.cache k
      exact inv_goto h ht _ _ (h.cinv.load k) e1 e3 (Or.inl ⟨by simp, by simp, rfl⟩) _
    · cases hs
  · rename_i k i ht
    cases hs
    exact inv_goto (ph' := .read) h ht _ _ (CInv_used h.cinv (upd s.cache.used k true)) rfl rfl (Or.inl ⟨by simp, by simp, rfl⟩) _
  · rename_i k i ht
    cases hs
    exact inv_goto h ht _ _ h.cinv rfl rfl (Or.inl ⟨by simp, by simp, rfl⟩) _
  · rename_i k i ht
    cases hs
    have hst := h.keys _ _ _ _ ht
    have hd : s.cache.decRef k = { s.cache with refs := upd s.cache.refs k (s.cache.refs k - 1) } := by
      unfold St.decRef; rw [if_pos hst]
    refine ⟨?_, ?_, ?_, ?_, ?_⟩
    · show St.CInv file (s.cache.decRef k)
      rw [hd]; exact CInv_refs h.cinv _
    · intro x
      show (s.cache.decRef k).refs x = (((s.threads.set t .idle).countP _ : Nat) : Int)
      rw [hd, count_set ht]
      simp only [PC.uses]
      by_cases hx : x = k
      · subst hx; simp [upd_same, h.refs x]
      · have : ¬ k = x := Ne.symm hx
        simp [upd_ne _ _ hx, h.refs x, this]
    · intro t' ph k2 i2 h2
      show (s.cache.decRef k).stored k2 = true
      rw [hd]
      have h2' : (s.threads.set t .idle)[t']? = some (.at ph k2 i2) := h2
      rw [get_set ht] at h2'
      split at h2'
      · cases h2'
      · exact h.keys _ _ _ _ h2'
    · intro t' hl
      have hl' : s.lock = some t' := hl
      obtain ⟨k2, i2, h4⟩ := h.locked _ hl'
      refine ⟨k2, i2, ?_⟩
      show (s.threads.set t .idle)[t']? = _
      rw [get_set ht]
      split
      · rename_i he; subst he; rw [ht] at h4; cases h4
      · exact h4
    · intro t' k2 i2 h2
      have h2' : (s.threads.set t .idle)[t']? = some (.at .evict k2 i2) := h2
      rw [get_set ht] at h2'
      split at h2'
      · cases h2'
      · exact h.evicting _ _ _ h2'

theorem inv_step {file : Key → List α} {s s' : Sys α} (h : SInv file s) (e : Event)
    (hs : s.step file e = some s') : SInv file s' := by
  cases e with
  | run t => exact inv_run h t hs
  | start t k i =>
    simp only [step] at hs
    split at hs
    · rename_i hg
      obtain ⟨ht, hst⟩ := hg
      cases hs
      have hd : s.cache.incRef k = { s.cache with refs := upd s.cache.refs k (s.cache.refs k + 1) } := by
        unfold St.incRef; rw [if_pos hst]
      refine ⟨?_, ?_, ?_, ?_, ?_⟩
      · show St.CInv file (s.cache.incRef k)
        rw [hd]; exact CInv_refs h.cinv _
      · intro x
        show (s.cache.incRef k).refs x = (((s.threads.set t _).countP _ : Nat) : Int)
        rw [hd, count_set ht]
        simp only [PC.uses]
        by_cases hx : x = k
        · subst hx; simp [upd_same, h.refs x]
        · have : ¬ k = x := Ne.symm hx
          simp [upd_ne _ _ hx, h.refs x, this]
      · intro t' ph k2 i2 h2
        show (s.cache.incRef k).stored k2 = true
        rw [hd]
        have h2' : (s.threads.set t (.at .check k i))[t']? = some (.at ph k2 i2) := h2
        rw [get_set ht] at h2'
        split at h2'
        · cases h2'; exact hst
        · exact h.keys _ _ _ _ h2'
      · intro t' hl
        have hl' : s.lock = some t' := hl
        obtain ⟨k2, i2, h4⟩ := h.locked _ hl'
        refine ⟨k2, i2, ?_⟩
        show (s.threads.set t _)[t']? = _
        rw [get_set ht]
        split
        · rename_i he; subst he; rw [ht] at h4; cases h4
        · exact h4
      · intro t' k2 i2 h2
        have h2' : (s.threads.set t (.at .check k i))[t']? = some (.at .evict k2 i2) := h2
        rw [get_set ht] at h2'
        split at h2'
        · cases h2'
        · exact h.evicting _ _ _ h2'
    · cases hs
  | flush =>
    simp only [step] at hs
    split at hs
    · cases hs
      refine ⟨h.cinv.flush, ?_, ?_, h.locked, h.evicting⟩
      · intro x; show s.cache.flush.refs x = _; rw [St.flush_eq h.cinv]; exact h.refs x
      · intro t' ph k2 i2 h2
        show s.cache.flush.stored k2 = true
        rw [St.flush_eq h.cinv]; exact h.keys _ _ _ _ h2
    · cases hs
  | setMax m =>
    simp only [step] at hs; cases hs
    exact ⟨⟨h.cinv.nodup, h.cinv.mem, h.cinv.data, h.cinv.mem_use⟩, h.refs, h.keys, h.locked, h.evicting⟩
  | setLimit b =>
    simp only [step] at hs; cases hs
    exact ⟨⟨h.cinv.nodup, h.cinv.mem, h.cinv.data, h.cinv.mem_use⟩, h.refs, h.keys, h.locked, h.evicting⟩
  | remove fd =>
    simp only [step] at hs
    split at hs
    · rename_i hg
      obtain ⟨hl, ha⟩ := hg
      cases hs
      have hno : ∀ pc ∈ s.threads, ∀ k : Key, k.field = fd → pc.uses k = false := by
        intro pc hpc k hk
        have := List.all_eq_true.mp ha pc hpc
        cases pc with
        | idle => rfl
        | «at» ph k' i =>
          simp only [decide_eq_true_eq] at this
          simp only [PC.uses, decide_eq_false_iff_not]
          intro e; subst e; exact this hk
      refine ⟨h.cinv.remove fd, ?_, ?_, h.locked, h.evicting⟩
      · intro x
        show (if x.field = fd then 0 else s.cache.refs x) = _
        split
        · rename_i hx
          have : s.threads.countP (PC.uses x) = 0 := by
            rw [List.countP_eq_zero]
            intro pc hpc; rw [hno pc hpc x hx]; simp
          show (0 : Int) = ((s.threads.countP (PC.uses x) : Nat) : Int)
          rw [this]; rfl
        · exact h.refs x
      · intro t' ph k2 i2 h2
        show (if k2.field = fd then false else s.cache.stored k2) = true
        have hm := hno _ (List.mem_of_getElem? h2) k2
        split
        · rename_i hk; have := hm hk; simp [PC.uses] at this
        · exact h.keys _ _ _ _ h2
    · cases hs

theorem inv_init {file : Key → List α} (n : Nat) (stored : Key → Bool) (size : Key → Nat) (m : Int) (b : Bool) :
    SInv file (init n stored size m b : Sys α) := by
  have hidle : ∀ (t : Nat) pc, (List.replicate n PC.idle)[t]? = some pc → pc = .idle := by
    intro t pc h
    exact List.eq_of_mem_replicate (List.mem_of_getElem? h)
  refine ⟨St.CInv.init _ _ _ _, ?_, ?_, ?_, ?_⟩
  · intro k
    have : (List.replicate n PC.idle).countP (PC.uses k) = 0 := by
      rw [List.countP_eq_zero]
      intro pc hpc; rw [List.eq_of_mem_replicate hpc]; simp [PC.uses]
    show (0 : Int) = (((List.replicate n PC.idle).countP (PC.uses k) : Nat) : Int)
    rw [this]; rfl
  · intro t ph k i h; exact absurd (hidle t _ h) (by simp)
  · intro t h; cases h
  · intro t k i h; exact absurd (hidle t _ h) (by simp)

/-! Safety of reads -/

/-- Threads that have activated their block find it loaded, and everything read so far is what the
file holds. -/
structure Safe (file : Key → List α) (s : Sys α) : Prop where
  act : ∀ (t : Nat) ph k i, s.threads[t]? = some (.at ph k i) → ph = .mark ∨ ph = .read ∨ ph = .unpin →
    s.cache.flag k = true
  log : ∀ k i v, (k, i, v) ∈ s.log → v = (file k)[i]?

/-- A flush is quiet if no thread is inside a read. -/
def quiet (s : Sys α) : Event → Bool
  | .flush => s.threads.all (fun pc => decide (pc = .idle))
  | _ => true

theorem safe_goto {file : Key → List α} {s : Sys α} (h : Safe file s) {t : Nat} {ph ph' : Phase} {k : Key}
    {i : Nat} (ht : s.threads[t]? = some (.at ph k i)) (c' : St α) (l' : Option Nat)
    (hf : ∀ (t : Nat) ph x i, s.threads[t]? = some (.at ph x i) → s.cache.flag x = true → c'.flag x = true)
    (hk : ph' = .mark ∨ ph' = .read ∨ ph' = .unpin → c'.flag k = true)
    (g : List (Key × Nat × Option α)) (hg : ∀ k i v, (k, i, v) ∈ g → v = (file k)[i]?) :
    Safe file ⟨c', l', s.threads.set t (.at ph' k i), g⟩ := by
  refine ⟨?_, hg⟩
  intro t' ph2 k2 i2 h2 hph
  simp only at h2 ⊢
  rw [get_set ht] at h2
  split at h2
  · simp only [Option.some.injEq, PC.at.injEq] at h2
    obtain ⟨rfl, rfl, _⟩ := h2
    exact hk hph
  · exact hf _ _ _ _ h2 (h.act _ _ _ _ h2 hph)

theorem safe_step {file : Key → List α} {s s' : Sys α} (hi : SInv file s) (h : Safe file s) (e : Event)
    (hq : s.quiet e = true) (hs : s.step file e = some s') : Safe file s' := by
  cases e with
  | start t k i =>
    simp only [step] at hs
    split at hs
    · rename_i hg
      obtain ⟨ht, hst⟩ := hg
      cases hs
      have hfl : (s.cache.incRef k).flag = s.cache.flag := by
        unfold St.incRef; split <;> rfl
      refine ⟨?_, h.log⟩
      intro t' ph2 k2 i2 h2 hph
      have h2' : (s.threads.set t (.at .check k i))[t']? = some (.at ph2 k2 i2) := h2
      rw [get_set ht] at h2'
      show (s.cache.incRef k).flag k2 = true
      rw [hfl]
      split at h2'
      · cases h2'; simp at hph
      · exact h.act _ _ _ _ h2' hph
    · cases hs
  | flush =>
    simp only [step] at hs
    split at hs
    · cases hs
      refine ⟨?_, h.log⟩
      intro t ph k i ht _
      have ht' : s.threads[t]? = some (.at ph k i) := ht
      have := List.all_eq_true.mp hq _ (List.mem_of_getElem? ht')
      simp at this
    · cases hs
  | setMax m => simp only [step] at hs; cases hs; exact ⟨h.act, h.log⟩
  | setLimit b => simp only [step] at hs; cases hs; exact ⟨h.act, h.log⟩
  | remove fd =>
    simp only [step] at hs
    split at hs
    · rename_i hg
      cases hs
      refine ⟨?_, h.log⟩
      intro t ph k i ht hph
      have ht' : s.threads[t]? = some (.at ph k i) := ht
      have := List.all_eq_true.mp hg.2 _ (List.mem_of_getElem? ht')
      simp only [decide_eq_true_eq] at this
      show (if k.field = fd then false else s.cache.flag k) = true
      rw [if_neg this]
      exact h.act _ _ _ _ ht' hph
    · cases hs
  | run t =>
    simp only [step, runStep] at hs
    split at hs
    · cases hs
    · cases hs
    · rename_i k i ht
      split at hs
      · split at hs <;> cases hs
        · exact safe_goto h ht _ _ (fun _ _ _ _ _ hx => hx) (by simp) _ h.log
        · exact safe_goto h ht _ _ (fun _ _ _ _ _ hx => hx) (by simp) _ h.log
      · rename_i hc
        cases hs
        refine safe_goto h ht _ _ (fun _ _ _ _ _ hx => hx) (fun _ => ?_) _ h.log
        have := hi.keys _ _ _ _ ht
        simp only [this, true_and] at hc
        simpa using hc
    · rename_i k i ht
      split at hs
      · cases hs
        exact safe_goto h ht _ _ (fun _ _ _ _ _ hx => hx) (by simp) _ h.log
      · cases hs
    · rename_i k i ht
      split at hs
      · cases hs
        refine ⟨?_, h.log⟩
        intro t' ph k2 i2 h2 hph
        show s.cache.evictIter.flag k2 = true
        rw [(St.evictIter_keeps (users_pos hi h2)).1]
        exact h.act _ _ _ _ h2 hph
      · cases hs
        exact safe_goto h ht _ _ (fun _ _ _ _ _ hx => hx) (by simp) _ h.log
    · rename_i k i ht
      split at hs
      · cases hs
        exact safe_goto h ht _ _ (fun _ _ _ _ _ hx => St.loadLocked_mono k hx)
          (fun _ => St.loadLocked_flag k) _ h.log
      · cases hs
    · rename_i k i ht
      cases hs
      exact safe_goto (ph' := .read) h ht { s.cache with used := upd s.cache.used k true } _
        (fun _ _ _ _ _ hx => hx) (fun _ => h.act _ _ _ _ ht (by simp)) _ h.log
    · rename_i k i ht
      cases hs
      refine safe_goto h ht _ _ (fun _ _ _ _ _ hx => hx) (fun _ => h.act _ _ _ _ ht (by simp)) _ ?_
      intro k2 i2 v hm
      rw [List.mem_append] at hm
      rcases hm with hm | hm
      · exact h.log _ _ _ hm
      · simp only [List.mem_singleton, Prod.mk.injEq] at hm
        obtain ⟨rfl, rfl, rfl⟩ := hm
        rw [hi.cinv.data, h.act _ _ _ _ ht (by simp)]
        simp
    · rename_i k i ht
      cases hs
      have hfl : (s.cache.decRef k).flag = s.cache.flag := by
        unfold St.decRef; split <;> rfl
      refine ⟨?_, h.log⟩
      intro t' ph2 k2 i2 h2 hph
      have h2' : (s.threads.set t .idle)[t']? = some (.at ph2 k2 i2) := h2
      rw [get_set ht] at h2'
      show (s.cache.decRef k).flag k2 = true
      rw [hfl]
      split at h2'
      · cases h2'
      · exact h.act _ _ _ _ h2' hph

end Sys
end F3D.Cache
