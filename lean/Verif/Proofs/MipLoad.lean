import Verif.Model.MipLoad

/-!
# Invariants of lazy loading
-/

namespace F3D
namespace MipLoad

/-- Whether a thread holds the lock. -/
def Pc.inside : Pc → Bool
  | .third .. | .load .. | .fail .. | .reset .. | .publish .. | .sync .. | .map .. | .unlock .. => true
  | _ => false

/-- The level a thread works on. -/
def Pc.level : Pc → Option Nat
  | .idle => none
  | .first l _ | .second l _ | .lock l _ | .third l _ | .load l _ | .fail l | .reset l _ | .publish l _ _ | .sync l _
  | .map l _ | .unlock l _ | .read l _ => some l

def Ready (s : State) (l : Nat) : Prop :=
  s.raw l = s.fields l ∧ (s.fields l ≠ none → s.synced l = true ∧ s.mapped l = true)

/-- What the lock protects, when the thread that holds it is at the given place. -/
def Rel (s : State) : Option Pc → Prop
  | some (.load l _) => (∀ i, Ready s i) ∧ s.raw l = none
  | some (.reset l _) => (∀ i, i ≠ l → Ready s i) ∧ s.fields l ≠ none ∧ s.raw l = none
  | some (.publish l _ j) => (∀ i, i ≠ l → Ready s i) ∧ s.fields l ≠ none ∧ (s.raw l = none ∨ s.raw l = s.fields l) ∧
      (l < j → s.raw l = s.fields l)
  | some (.sync l _) => (∀ i, i ≠ l → Ready s i) ∧ s.fields l ≠ none ∧ s.raw l = s.fields l
  | some (.map l _) => (∀ i, i ≠ l → Ready s i) ∧ s.fields l ≠ none ∧ s.raw l = s.fields l ∧ s.synced l = true
  | some (.unlock l _) => (∀ i, Ready s i) ∧ s.fields l ≠ none
  | _ => ∀ i, Ready s i

/-- The calls of the load action so far. -/
def ObjOk (disk : Nat → Nat → Bool) (s : State) (l : Nat) : Prop :=
  match s.fields l with
  | none => s.actions l = true ∧ ∀ b < s.calls l, disk l b = false
  | some a => s.calls l = a + 1 ∧ disk l a = true ∧ ∀ b < a, disk l b = false

/-- What holds of a thread. -/
structure ThOk (P : Nat → Prop) (s : State) (th : Thread) : Prop where
  todo : ∀ a ∈ th.todo, P a.1
  level : ∀ l, th.pc.level = some l → P l
  reading : ∀ l k, th.pc = .read l k → s.raw l ≠ none
  out : ∀ l obj r, Out.returned l obj r ∈ th.out → obj ≠ none ∧ obj = s.fields l

/-- Exceptions for level `l`, thrown or about to be thrown. -/
def Thread.throws (th : Thread) (l : Nat) : Nat := th.out.count (.threw l) + if th.pc = .fail l then 1 else 0

def State.throws (s : State) (l : Nat) : Nat := (s.threads.map fun th => th.throws l).sum

structure Inv (P : Nat → Prop) (disk : Nat → Nat → Bool) (s : State) : Prop where
  holds : ∀ (t : Nat) (th : Thread), s.threads[t]? = some th → (th.pc.inside = true ↔ s.mutex = some t)
  exist : ∀ t, s.mutex = some t → t < s.threads.length
  rel : Rel s (s.mutex.bind fun t => (s.threads[t]?).map fun th => th.pc)
  obj : ∀ l, ObjOk disk s l
  th : ∀ th ∈ s.threads, ThOk P s th
  lazy : ∀ l, 0 < s.calls l → P l
  count : ∀ l, s.throws l + (if (s.fields l).isSome then 1 else 0) = s.calls l

theorem sum_set (f : Thread → Nat) : ∀ (l : List Thread) (t : Nat) (th th' : Thread), l[t]? = some th →
    ((l.set t th').map f).sum + f th = (l.map f).sum + f th'
  | [], t, _, _, h => by simp at h
  | x :: l, 0, th, th', h => by
    simp at h
    subst h
    simp only [List.set_cons_zero, List.map_cons, List.sum_cons]
    omega
  | x :: l, t + 1, th, th', h => by
    have := sum_set f l t th th' (by simpa using h)
    simp only [List.set_cons_succ, List.map_cons, List.sum_cons]
    omega

/-- A step that changes thread `t` and the members. -/
theorem Inv.set {P : Nat → Prop} {disk : Nat → Nat → Bool} {s : State} (h : Inv P disk s) {t : Nat} {th : Thread}
    (ht : s.threads[t]? = some th) (s' : State) (th' : Thread) (hs : s'.threads = s.threads.set t th')
    (hm : (th.pc.inside = th'.pc.inside ∧ s'.mutex = s.mutex) ∨
      (th.pc.inside = false ∧ th'.pc.inside = true ∧ s.mutex = none ∧ s'.mutex = some t) ∨
      (th.pc.inside = true ∧ th'.pc.inside = false ∧ s'.mutex = none))
    (hrel : (th.pc.inside = false ∧ th'.pc.inside = false ∧ ∀ pc, Rel s pc → Rel s' pc) ∨
      ((th.pc.inside = true ∨ th'.pc.inside = true) ∧ Rel s' (if th'.pc.inside then some th'.pc else none)))
    (hobj : ∀ l, ObjOk disk s' l) (hmono : ∀ l a, s.fields l = some a → s'.fields l = some a)
    (hraw : ∀ l, s.raw l ≠ none → s'.raw l ≠ none) (hth : ThOk P s' th') (hlazy : ∀ l, 0 < s'.calls l → P l)
    (hcount : ∀ l, th'.throws l + (if (s'.fields l).isSome then 1 else 0) + s.calls l =
      th.throws l + (if (s.fields l).isSome then 1 else 0) + s'.calls l) : Inv P disk s' := by
  have htl : t < s.threads.length := (List.getElem?_eq_some_iff.1 ht).1
  have hin := h.holds t th ht
  have hget : ∀ u, s'.threads[u]? = if t = u then some th' else s.threads[u]? := fun u => by
    rw [hs, List.getElem?_set]
    split
    · rename_i e; subst e; simp
    · rfl
  refine ⟨fun u x hu => ?_, fun u hu => ?_, ?_, hobj, fun x hx => ?_, hlazy, fun l => ?_⟩
  · rw [hget] at hu
    split at hu
    · rename_i e; subst e
      cases hu
      rcases hm with ⟨h1, h2⟩ | ⟨h1, h2, h3, h4⟩ | ⟨h1, h2, h3⟩
      · rw [← h1, h2]; exact hin
      · simp [h2, h4]
      · simp [h2, h3]
    · rename_i e
      have := h.holds u x hu
      rcases hm with ⟨h1, h2⟩ | ⟨h1, h2, h3, h4⟩ | ⟨h1, h2, h3⟩
      · rw [h2]; exact this
      · rw [this, h3, h4]
        simp [e]
      · rw [this, h3, hin.1 h1]
        simp [e]
  · rw [hs, List.length_set]
    rcases hm with ⟨h1, h2⟩ | ⟨h1, h2, h3, h4⟩ | ⟨h1, h2, h3⟩
    · rw [h2] at hu; exact h.exist u hu
    · rw [h4] at hu; cases hu; exact htl
    · rw [h3] at hu; cases hu
  · rcases hrel with ⟨h1, h2, h3⟩ | ⟨h1, h2⟩
    · have hmm : s'.mutex = s.mutex := by
        rcases hm with ⟨_, g⟩ | ⟨_, g, _⟩ | ⟨g, _⟩
        · exact g
        · rw [h2] at g; cases g
        · rw [h1] at g; cases g
      rw [hmm]
      have hr := h.rel
      cases hmu : s.mutex with
      | none => rw [hmu] at hr; exact h3 _ hr
      | some u =>
        rw [hmu] at hr
        simp only [Option.bind_some] at hr ⊢
        rw [hget]
        have : t ≠ u := fun e => by
          subst e
          rw [hin.2 hmu] at h1
          cases h1
        rw [if_neg this]
        exact h3 _ hr
    · have hmt : s'.mutex = if th'.pc.inside then some t else none := by
        rcases hm with ⟨g1, g2⟩ | ⟨_, g1, _, g2⟩ | ⟨_, g1, g2⟩
        · have : th.pc.inside = true := by
            rcases h1 with h1 | h1
            · exact h1
            · rw [g1]; exact h1
          rw [g2, hin.1 this, ← g1, this]
          rfl
        · rw [g1, g2]; rfl
        · rw [g1, g2]; rfl
      rw [hmt]
      cases hi : th'.pc.inside with
      | false =>
        rw [hi] at h2
        exact h2
      | true =>
        rw [hi] at h2
        simp only [if_true, Option.bind_some] at h2 ⊢
        rw [hget, if_pos rfl]
        exact h2
  · rw [hs] at hx
    rcases List.mem_or_eq_of_mem_set hx with hx | rfl
    · have g := h.th x hx
      refine ⟨g.todo, g.level, fun l k e => hraw l (g.reading l k e), fun l obj r e => ?_⟩
      obtain ⟨g1, g2⟩ := g.out l obj r e
      refine ⟨g1, ?_⟩
      cases hf : s.fields l with
      | none => rw [hf] at g2; exact absurd g2 g1
      | some a => rw [hmono l a hf, g2, hf]
    · exact hth
  · have h1 := h.count l
    have h2 := hcount l
    have h3 := sum_set (fun th => th.throws l) s.threads t th th' ht
    unfold State.throws at h1 ⊢
    rw [hs]
    omega

theorem inv_init (P : Nat → Prop) (disk : Nat → Nat → Bool) (programs : List (List (Nat × Kind)))
    (hP : ∀ p ∈ programs, ∀ a ∈ p, P a.1) : Inv P disk (State.init programs) := by
  refine ⟨fun t th ht => ?_, fun t ht => by simp [State.init] at ht, ?_, fun l => ?_, fun th hth => ?_, fun l hl => ?_,
    fun l => ?_⟩
  · simp only [State.init, List.getElem?_map, Option.map_eq_some_iff] at ht
    obtain ⟨p, _, rfl⟩ := ht
    simp [Pc.inside, State.init]
  · intro i
    simp [Ready, State.init]
  · simp [ObjOk, State.init]
  · simp only [State.init, List.mem_map] at hth
    obtain ⟨p, hp, rfl⟩ := hth
    exact ⟨hP p hp, by simp [Pc.level], by simp, by simp⟩
  · simp [State.init] at hl
  · have : ∀ ps : List (List (Nat × Kind)),
        ((ps.map fun p => (⟨.idle, p, []⟩ : Thread)).map fun th => th.throws l).sum = 0 := by
      intro ps
      induction ps with
      | nil => rfl
      | cons p ps ih =>
        rw [List.map_cons, List.map_cons, List.sum_cons, ih]
        simp [Thread.throws]
    simp only [State.throws, State.init]
    rw [this]
    rfl

theorem upd_self {T : Type} (f : Nat → T) (l : Nat) (v : T) : upd f l v l = v := by simp [upd]

theorem upd_ne {T : Type} (f : Nat → T) {l i : Nat} (v : T) (h : i ≠ l) : upd f l v i = f i := by simp [upd, h]

/-- The thread that holds the lock. -/
theorem Inv.holder {P : Nat → Prop} {disk : Nat → Nat → Bool} {s : State} (h : Inv P disk s) {t : Nat} {th : Thread}
    (ht : s.threads[t]? = some th) (hi : th.pc.inside = true) : s.mutex = some t ∧ Rel s (some th.pc) := by
  have hm := (h.holds t th ht).1 hi
  refine ⟨hm, ?_⟩
  have := h.rel
  rw [hm] at this
  simp only [Option.bind_some, ht, Option.map_some] at this
  exact this

theorem inv_step {P : Nat → Prop} {n : Nat} (hP : ∀ l, P l → l < n) {disk : Nat → Nat → Bool} {s : State} (h : Inv P disk s)
    (t : Nat) : ∃ s', s.step n disk t = some s' ∧ Inv P disk s' := by
  unfold State.step
  cases ht : s.threads[t]? with
  | none => exact ⟨s, rfl, h⟩
  | some th =>
    obtain ⟨pc, todo, out⟩ := th
    have hmem : ⟨pc, todo, out⟩ ∈ s.threads := List.mem_of_getElem? ht
    have hok := h.th _ hmem
    have hlev := hok.level
    have hout := hok.out
    have hobj := h.obj
    cases pc with
    | idle =>
      cases todo with
      | nil => exact ⟨s, rfl, h⟩
      | cons a rest =>
        obtain ⟨l, k⟩ := a
        refine ⟨_, rfl, h.set ht _ ⟨.first l k, rest, out⟩ rfl (.inl ⟨rfl, rfl⟩) (.inl ⟨rfl, rfl, fun _ h => h⟩) hobj
          (fun _ _ h => h) (fun _ h => h) ⟨fun a ha => hok.todo a (List.mem_cons_of_mem _ ha), fun l' e => ?_, by simp, hout⟩
          h.lazy fun l => by simp [Thread.throws]⟩
        simp only [Pc.level, Option.some.injEq] at e
        subst e
        exact hok.todo (l, k) (List.mem_cons_self ..)
    | first l k =>
      simp only [if_pos (hP l (hlev l rfl))]
      refine ⟨_, rfl, ?_⟩
      unfold State.goto
      cases hr : s.raw l with
      | none =>
        exact h.set ht _ ⟨.second l k, todo, out⟩ rfl (.inl ⟨rfl, rfl⟩) (.inl ⟨rfl, rfl, fun _ h => h⟩) hobj
          (fun _ _ h => h) (fun _ h => h) ⟨hok.todo, hlev, by simp, hout⟩ h.lazy fun l => by simp [Thread.throws]
      | some a =>
        refine h.set ht _ ⟨.read l k, todo, out⟩ rfl (.inl ⟨rfl, rfl⟩) (.inl ⟨rfl, rfl, fun _ h => h⟩) hobj
          (fun _ _ h => h) (fun _ h => h) ⟨hok.todo, hlev, ?_, hout⟩ h.lazy fun l => by simp [Thread.throws]
        intro l' k' e
        injection e with e1 e2
        subst e1
        simp [hr]
    | second l k =>
      refine ⟨_, rfl, ?_⟩
      unfold State.goto
      cases hr : s.raw l with
      | none =>
        exact h.set ht _ ⟨.lock l k, todo, out⟩ rfl (.inl ⟨rfl, rfl⟩) (.inl ⟨rfl, rfl, fun _ h => h⟩) hobj
          (fun _ _ h => h) (fun _ h => h) ⟨hok.todo, hlev, by simp, hout⟩ h.lazy fun l => by simp [Thread.throws]
      | some a =>
        refine h.set ht _ ⟨.read l k, todo, out⟩ rfl (.inl ⟨rfl, rfl⟩) (.inl ⟨rfl, rfl, fun _ h => h⟩) hobj
          (fun _ _ h => h) (fun _ h => h) ⟨hok.todo, hlev, ?_, hout⟩ h.lazy fun l => by simp [Thread.throws]
        intro l' k' e
        injection e with e1 e2
        subst e1
        simp [hr]
    | lock l k =>
      cases hm : s.mutex with
      | some u => exact ⟨s, rfl, h⟩
      | none =>
        have hr := h.rel
        rw [hm] at hr
        exact ⟨_, rfl, h.set ht _ ⟨.third l k, todo, out⟩ rfl (.inr (.inl ⟨rfl, rfl, hm, rfl⟩)) (.inr ⟨.inr rfl, hr⟩) hobj
          (fun _ _ h => h) (fun _ h => h) ⟨hok.todo, hlev, by simp, hout⟩ h.lazy fun l => by simp [Thread.throws]⟩
    | third l k =>
      obtain ⟨hm, hr⟩ := h.holder ht rfl
      refine ⟨_, rfl, ?_⟩
      unfold State.goto
      cases hraw : s.raw l with
      | none =>
        exact h.set ht _ ⟨.load l k, todo, out⟩ rfl (.inl ⟨rfl, rfl⟩) (.inr ⟨.inl rfl, hr, hraw⟩) hobj
          (fun _ _ h => h) (fun _ h => h) ⟨hok.todo, hlev, by simp, hout⟩ h.lazy fun l => by simp [Thread.throws]
      | some a =>
        exact h.set ht _ ⟨.unlock l k, todo, out⟩ rfl (.inl ⟨rfl, rfl⟩)
          (.inr ⟨.inl rfl, hr, by rw [← (hr l).1, hraw]; simp⟩) hobj
          (fun _ _ h => h) (fun _ h => h) ⟨hok.todo, hlev, by simp, hout⟩ h.lazy fun l => by simp [Thread.throws]
    | load l k =>
      obtain ⟨hm, hr, hraw⟩ := h.holder ht rfl
      have hfl : s.fields l = none := by rw [← (hr l).1, hraw]
      have ho := hobj l
      unfold ObjOk at ho
      rw [hfl] at ho
      simp only [ho.1, if_true]
      refine ⟨_, rfl, ?_⟩
      have hne : ∀ l' a, s.fields l' = some a → l' ≠ l := fun l' a e e' => by
        rw [e', hfl] at e; cases e
      have hlazy : ∀ l', 0 < upd s.calls l (s.calls l + 1) l' → P l' := fun l' hl' => by
        by_cases e : l' = l
        · subst e; exact hlev l' rfl
        · rw [upd_ne _ _ e] at hl'; exact h.lazy l' hl'
      have hout' : ∀ obj, ∀ l' o r, Out.returned l' o r ∈ out → o ≠ none ∧ o = upd s.fields l obj l' := by
        intro obj l' o r e
        obtain ⟨g1, g2⟩ := hout l' o r e
        refine ⟨g1, ?_⟩
        rw [upd_ne, g2]
        rintro rfl
        rw [hfl] at g2
        exact g1 g2
      cases hd : disk l (s.calls l) with
      | false =>
        refine h.set ht _ ⟨.fail l, todo, out⟩ rfl (.inl ⟨rfl, rfl⟩) (.inr ⟨.inl rfl, fun i => ?_⟩) (fun l' => ?_)
          (fun l' a e => ?_) (fun _ h => h) ⟨hok.todo, hlev, by simp, hout' _⟩ hlazy fun l' => ?_
        · have := hr i
          unfold Ready at this ⊢
          simp only [Bool.false_eq_true, if_false]
          by_cases e : i = l
          · subst e; rw [upd_self, hraw]; simp
          · rw [upd_ne _ _ e]; exact this
        · have := hobj l'
          unfold ObjOk at this ⊢
          simp only [Bool.false_eq_true, if_false]
          by_cases e : l' = l
          · subst e
            rw [upd_self, upd_self]
            refine ⟨ho.1, fun b hb => ?_⟩
            by_cases hb' : b = s.calls l'
            · rw [hb']; exact hd
            · exact ho.2 b (by omega)
          · rw [upd_ne _ _ e, upd_ne _ _ e]; exact this
        · simp only
          rw [upd_ne _ _ (hne l' a e)]; exact e
        · simp only [Thread.throws, Bool.false_eq_true, if_false]
          by_cases e : l' = l
          · subst e
            simp only [upd_self, hfl]
            simp
            omega
          · rw [upd_ne _ _ e, upd_ne _ _ e]
            have : ¬ l = l' := fun h => e h.symm
            simp [this]
      | true =>
        refine h.set ht _ ⟨.reset l k, todo, out⟩ rfl (.inl ⟨rfl, rfl⟩) (.inr ⟨.inl rfl, fun i hi => ?_, ?_, hraw⟩)
          (fun l' => ?_) (fun l' a e => ?_) (fun _ h => h) ⟨hok.todo, hlev, by simp, hout' _⟩ hlazy fun l' => ?_
        · have := hr i
          unfold Ready at this ⊢
          simp only [if_true]
          rw [upd_ne _ _ hi]; exact this
        · simp only [if_true]
          rw [upd_self]; simp
        · have := hobj l'
          unfold ObjOk at this ⊢
          simp only [if_true]
          by_cases e : l' = l
          · subst e
            rw [upd_self, upd_self]
            exact ⟨rfl, hd, ho.2⟩
          · rw [upd_ne _ _ e, upd_ne _ _ e]; exact this
        · simp only
          rw [upd_ne _ _ (hne l' a e)]; exact e
        · simp only [Thread.throws, if_true]
          by_cases e : l' = l
          · subst e
            simp only [upd_self, hfl]
            simp
            omega
          · rw [upd_ne _ _ e, upd_ne _ _ e]
            simp
    | fail l =>
      obtain ⟨hm, hr⟩ := h.holder ht rfl
      refine ⟨_, rfl, h.set ht _ ⟨.idle, todo, out ++ [.threw l]⟩ rfl (.inr (.inr ⟨rfl, rfl, rfl⟩)) (.inr ⟨.inl rfl, hr⟩) hobj
        (fun _ _ h => h) (fun _ h => h) ⟨hok.todo, by simp [Pc.level], by simp, fun l' o r e => ?_⟩ h.lazy fun l' => ?_⟩
      · simp only [List.mem_append, List.mem_singleton, reduceCtorEq, or_false] at e
        exact hout l' o r e
      · simp only [Thread.throws, List.count_append, List.count_singleton]
        simp
    | reset l k =>
      obtain ⟨hm, hr⟩ := h.holder ht rfl
      refine ⟨_, rfl, h.set ht _ ⟨.publish l k 0, todo, out⟩ rfl (.inl ⟨rfl, rfl⟩)
        (.inr ⟨.inl rfl, hr.1, hr.2.1, .inl hr.2.2, by omega⟩) (fun l' => ?_)
        (fun _ _ h => h) (fun _ h => h) ⟨hok.todo, hlev, by simp, hout⟩ h.lazy fun l => by simp [Thread.throws]⟩
      have := hobj l'
      unfold ObjOk at this ⊢
      simp only at this ⊢
      cases hf : s.fields l' with
      | none =>
        rw [hf] at this
        have hne : l' ≠ l := fun e => hr.2.1 (by rw [← e]; exact hf)
        simp only [upd_ne _ _ hne]
        exact this
      | some a =>
        rw [hf] at this
        exact this
    | publish l k j =>
      obtain ⟨hm, hr1, hr2, hr3, hr4⟩ := h.holder ht rfl
      have hraw : ∀ i, s.raw i = none ∨ s.raw i = s.fields i := fun i => by
        by_cases e : i = l
        · subst e; exact hr3
        · exact .inr (hr1 i e).1
      simp only
      split
      · refine ⟨_, rfl, h.set ht _ ⟨.publish l k (j + 1), todo, out⟩ rfl (.inl ⟨rfl, rfl⟩)
          (.inr ⟨.inl rfl, fun i hi => ?_, hr2, ?_, fun hlt => ?_⟩) hobj
          (fun _ _ h => h) (fun i hi => ?_) ⟨hok.todo, hlev, by simp, hout⟩ h.lazy fun l => by simp [Thread.throws]⟩
        · have := hr1 i hi
          unfold Ready at this ⊢
          refine ⟨?_, this.2⟩
          simp only
          by_cases e : i = j
          · subst e; rw [upd_self]
          · rw [upd_ne _ _ e]; exact this.1
        · simp only
          by_cases e : l = j
          · subst e; rw [upd_self]; exact .inr rfl
          · rw [upd_ne _ _ e]; exact hr3
        · simp only
          by_cases e : l = j
          · subst e; rw [upd_self]
          · rw [upd_ne _ _ e]; exact hr4 (by omega)
        · simp only
          by_cases e : i = j
          · subst e
            rw [upd_self]
            rcases hraw i with h' | h'
            · exact absurd h' hi
            · rw [← h']; exact hi
          · rw [upd_ne _ _ e]; exact hi
      · rename_i hj
        have hl := hP l (hlev l rfl)
        exact ⟨_, rfl, h.set ht _ ⟨.sync l k, todo, out⟩ rfl (.inl ⟨rfl, rfl⟩)
          (.inr ⟨.inl rfl, hr1, hr2, hr4 (by omega)⟩) hobj
          (fun _ _ h => h) (fun _ h => h) ⟨hok.todo, hlev, by simp, hout⟩ h.lazy
          fun l => by simp [Thread.throws, State.goto]; rfl⟩
    | sync l k =>
      obtain ⟨hm, hr1, hr2, hr3⟩ := h.holder ht rfl
      refine ⟨_, rfl, h.set ht _ ⟨.map l k, todo, out⟩ rfl (.inl ⟨rfl, rfl⟩)
        (.inr ⟨.inl rfl, fun i hi => ?_, hr2, hr3, by simp [upd]⟩) hobj
        (fun _ _ h => h) (fun _ h => h) ⟨hok.todo, hlev, by simp, hout⟩ h.lazy fun l => by simp [Thread.throws]⟩
      have := hr1 i hi
      unfold Ready at this ⊢
      simp only
      rw [upd_ne _ _ hi]
      exact this
    | map l k =>
      obtain ⟨hm, hr1, hr2, hr3, hr4⟩ := h.holder ht rfl
      refine ⟨_, rfl, h.set ht _ ⟨.unlock l k, todo, out⟩ rfl (.inl ⟨rfl, rfl⟩)
        (.inr ⟨.inl rfl, fun i => ?_, hr2⟩) hobj
        (fun _ _ h => h) (fun _ h => h) ⟨hok.todo, hlev, by simp, hout⟩ h.lazy fun l => by simp [Thread.throws]⟩
      by_cases hi : i = l
      · subst hi
        exact ⟨hr3, fun _ => ⟨hr4, by simp [upd]⟩⟩
      · have := hr1 i hi
        unfold Ready at this ⊢
        simp only
        rw [upd_ne _ _ hi]
        exact this
    | unlock l k =>
      obtain ⟨hm, hr1, hr2⟩ := h.holder ht rfl
      refine ⟨_, rfl, h.set ht _ ⟨.read l k, todo, out⟩ rfl (.inr (.inr ⟨rfl, rfl, rfl⟩)) (.inr ⟨.inl rfl, hr1⟩) hobj
        (fun _ _ h => h) (fun _ h => h) ⟨hok.todo, hlev, fun l' k' e => ?_, hout⟩ h.lazy fun l => by simp [Thread.throws]⟩
      injection e with e1 e2
      subst e1
      show s.raw l ≠ none
      rw [(hr1 l).1]
      exact hr2
    | read l k =>
      have hraw := hok.reading l k rfl
      have hrf : s.raw l = s.fields l := by
        have hr := h.rel
        cases hm : s.mutex with
        | none => rw [hm] at hr; exact (hr l).1
        | some u =>
          rw [hm] at hr
          have hu := h.exist u hm
          simp only [Option.bind_some, List.getElem?_eq_getElem hu, Option.map_some] at hr
          cases hp : s.threads[u].pc with
          | load l' k' => rw [hp] at hr; exact (hr.1 l).1
          | reset l' k' =>
            rw [hp] at hr
            by_cases e : l = l'
            · subst e; exact absurd hr.2.2 hraw
            · exact (hr.1 l e).1
          | publish l' k' i =>
            rw [hp] at hr
            by_cases e : l = l'
            · subst e; exact hr.2.2.1.resolve_left hraw
            · exact (hr.1 l e).1
          | sync l' k' =>
            rw [hp] at hr
            by_cases e : l = l'
            · subst e; exact hr.2.2
            · exact (hr.1 l e).1
          | map l' k' =>
            rw [hp] at hr
            by_cases e : l = l'
            · subst e; exact hr.2.2.1
            · exact (hr.1 l e).1
          | unlock l' k' => rw [hp] at hr; exact (hr.1 l).1
          | idle => rw [hp] at hr; exact (hr l).1
          | first _ _ => rw [hp] at hr; exact (hr l).1
          | second _ _ => rw [hp] at hr; exact (hr l).1
          | lock _ _ => rw [hp] at hr; exact (hr l).1
          | third _ _ => rw [hp] at hr; exact (hr l).1
          | fail _ => rw [hp] at hr; exact (hr l).1
          | read _ _ => rw [hp] at hr; exact (hr l).1
      have hobj' : ∀ k : Kind, (match k with | .raw => s.raw l | .shared => s.fields l) = s.fields l := by
        intro k
        cases k
        · exact hrf
        · rfl
      refine ⟨_, rfl, h.set ht _ ⟨.idle, todo, out ++ [.returned l _ _]⟩ rfl (.inl ⟨rfl, rfl⟩)
        (.inl ⟨rfl, rfl, fun _ h => h⟩) hobj (fun _ _ h => h) (fun _ h => h)
        ⟨hok.todo, by simp [Pc.level], by simp, fun l' o r e => ?_⟩ h.lazy fun l' => ?_⟩
      · rcases List.mem_append.1 e with e | e
        · exact hout l' o r e
        · simp only [List.mem_singleton, Out.returned.injEq] at e
          obtain ⟨rfl, rfl, rfl⟩ := e
          exact ⟨fun e => hraw (hrf.trans ((hobj' k).symm.trans e)), hobj' k⟩
      · simp only [Thread.throws, List.count_append, List.count_singleton]
        simp

theorem inv_run {P : Nat → Prop} {n : Nat} (hP : ∀ l, P l → l < n) {disk : Nat → Nat → Bool} : ∀ (sched : List Nat)
    {s : State}, Inv P disk s → ∃ s', s.run n disk sched = some s' ∧ Inv P disk s'
  | [], s, h => ⟨s, rfl, h⟩
  | t :: sched, s, h => by
    obtain ⟨s1, e, h1⟩ := inv_step hP h t
    obtain ⟨s2, e2, h2⟩ := inv_run hP sched h1
    exact ⟨s2, by simp [State.run, e, e2], h2⟩

/-! ## Progress -/

/-- Steps left in an access. -/
def Pc.cost (n : Nat) : Pc → Nat
  | .idle => 0
  | .read .. => 1
  | .fail .. => 1
  | .unlock .. => 2
  | .map .. => 3
  | .sync .. => 4
  | .publish _ _ i => 5 + (n - i)
  | .reset .. => 6 + n
  | .load .. => 7 + n
  | .third .. => 8 + n
  | .lock .. => 9 + n
  | .second .. => 10 + n
  | .first .. => 11 + n

def Thread.cost (n : Nat) (th : Thread) : Nat := th.pc.cost n + (12 + n) * th.todo.length

/-- A bound for the steps that are left. -/
def State.left (n : Nat) (s : State) : Nat := (s.threads.map fun th => th.cost n).sum

theorem left_set {n : Nat} {s s' : State} {t : Nat} {th th' : Thread} (ht : s.threads[t]? = some th)
    (hs : s'.threads = s.threads.set t th') (hc : th'.cost n < th.cost n) : s'.left n < s.left n := by
  have := sum_set (fun th => th.cost n) s.threads t th th' ht
  unfold State.left
  rw [hs]
  omega

/-- A step does nothing or brings the end nearer; a thread that has not ended and does not wait takes a step. -/
theorem left_step {n : Nat} {disk : Nat → Nat → Bool} {s s' : State} {t : Nat} (h : s.step n disk t = some s') :
    s' = s ∧ (∀ th, s.threads[t]? = some th → th.finished = true ∨ (s.mutex ≠ none ∧ ∃ l k, th.pc = .lock l k)) ∨
    s'.left n < s.left n := by
  unfold State.step at h
  cases ht : s.threads[t]? with
  | none =>
    rw [ht] at h
    simp only [Option.some.injEq] at h
    exact .inl ⟨h.symm, by simp⟩
  | some th =>
    obtain ⟨pc, todo, out⟩ := th
    rw [ht] at h
    cases pc with
    | idle =>
      cases todo with
      | nil =>
        simp only [Option.some.injEq] at h
        exact .inl ⟨h.symm, by simp [Thread.finished]⟩
      | cons a rest =>
        obtain ⟨l, k⟩ := a
        simp only [Option.some.injEq] at h
        subst h
        refine .inr (left_set ht rfl ?_)
        simp only [Thread.cost, Pc.cost, List.length_cons, Nat.mul_add]
        omega
    | first l k =>
      simp only at h
      split at h
      · simp only [Option.some.injEq] at h
        subst h
        refine .inr (left_set ht rfl ?_)
        simp only [Thread.cost]
        split <;> simp only [Pc.cost] <;> omega
      · cases h
    | second l k =>
      simp only [Option.some.injEq] at h
      subst h
      refine .inr (left_set ht rfl ?_)
      simp only [Thread.cost]
      split <;> simp only [Pc.cost] <;> omega
    | lock l k =>
      cases hm : s.mutex with
      | none =>
        rw [hm] at h
        simp only [Option.some.injEq] at h
        subst h
        refine .inr (left_set ht rfl ?_)
        simp only [Thread.cost, Pc.cost]
        omega
      | some u =>
        rw [hm] at h
        simp only [Option.some.injEq] at h
        refine .inl ⟨h.symm, fun th e => .inr ⟨by simp, l, k, ?_⟩⟩
        cases e
        rfl
    | third l k =>
      simp only [Option.some.injEq] at h
      subst h
      refine .inr (left_set ht rfl ?_)
      simp only [Thread.cost]
      split <;> simp only [Pc.cost] <;> omega
    | load l k =>
      simp only at h
      split at h
      · simp only [Option.some.injEq] at h
        subst h
        refine .inr (left_set ht rfl ?_)
        simp only [Thread.cost]
        generalize (if disk l (s.calls l) = true then some (s.calls l) else none : Option Nat) = o
        split <;> simp only [Pc.cost] <;> omega
      · cases h
    | publish l k i =>
      simp only at h
      split at h
      · simp only [Option.some.injEq] at h
        subst h
        refine .inr (left_set ht rfl ?_)
        simp only [Thread.cost, Pc.cost]
        omega
      · simp only [Option.some.injEq] at h
        subst h
        refine .inr (left_set ht rfl ?_)
        simp only [Thread.cost, Pc.cost]
        omega
    | fail l =>
      simp only [Option.some.injEq] at h
      subst h
      refine .inr (left_set ht rfl ?_)
      simp only [Thread.cost, Pc.cost]
      omega
    | reset l k =>
      simp only [Option.some.injEq] at h
      subst h
      refine .inr (left_set ht rfl ?_)
      simp only [Thread.cost, Pc.cost]
      omega
    | sync l k =>
      simp only [Option.some.injEq] at h
      subst h
      refine .inr (left_set ht rfl ?_)
      simp only [Thread.cost, Pc.cost]
      omega
    | map l k =>
      simp only [Option.some.injEq] at h
      subst h
      refine .inr (left_set ht rfl ?_)
      simp only [Thread.cost, Pc.cost]
      omega
    | unlock l k =>
      simp only [Option.some.injEq] at h
      subst h
      refine .inr (left_set ht rfl ?_)
      simp only [Thread.cost, Pc.cost]
      omega
    | read l k =>
      simp only [Option.some.injEq] at h
      subst h
      refine .inr (left_set ht rfl ?_)
      simp only [Thread.cost, Pc.cost]
      omega

/-- Unless all threads have ended some thread can take a step. -/
theorem progress {P : Nat → Prop} {n : Nat} (hP : ∀ l, P l → l < n) {disk : Nat → Nat → Bool} {s : State} (h : Inv P disk s)
    (hf : s.finished = false) : ∃ t, ∃ s', s.step n disk t = some s' ∧ s'.left n < s.left n := by
  cases hm : s.mutex with
  | some t =>
    have ht := List.getElem?_eq_getElem (h.exist t hm)
    have hi := (h.holds t _ ht).2 hm
    obtain ⟨s', e, _⟩ := inv_step hP h t
    refine ⟨t, s', e, (left_step e).resolve_left ?_⟩
    rintro ⟨_, h1⟩
    rcases h1 _ ht with h2 | ⟨_, l, k, h2⟩
    · unfold Thread.finished at h2
      simp only [Bool.and_eq_true, decide_eq_true_eq] at h2
      rw [h2.1] at hi
      cases hi
    · rw [h2] at hi
      cases hi
  | none =>
    unfold State.finished at hf
    rw [List.all_eq_false] at hf
    obtain ⟨th, hth, hnf⟩ := hf
    obtain ⟨t, ht⟩ := List.getElem?_of_mem hth
    obtain ⟨s', e, _⟩ := inv_step hP h t
    refine ⟨t, s', e, (left_step e).resolve_left ?_⟩
    rintro ⟨_, h1⟩
    rcases h1 _ ht with h2 | ⟨h2, _⟩
    · exact hnf h2
    · exact h2 hm

theorem completes {P : Nat → Prop} {n : Nat} (hP : ∀ l, P l → l < n) {disk : Nat → Nat → Bool} : ∀ (m : Nat) {s : State},
    Inv P disk s → s.left n ≤ m → ∃ sched s', s.run n disk sched = some s' ∧ s'.finished = true ∧ sched.length ≤ s.left n
  | m, s, h, hm => by
    cases hf : s.finished with
    | true => exact ⟨[], s, rfl, hf, Nat.zero_le _⟩
    | false =>
      obtain ⟨t, s1, e, hl⟩ := progress hP h hf
      cases m with
      | zero => omega
      | succ m =>
        obtain ⟨s1', e', h1⟩ := inv_step hP h t
        rw [e] at e'
        cases e'
        obtain ⟨sched, s2, e2, h2, hlen⟩ := completes hP m h1 (by omega)
        exact ⟨t :: sched, s2, by simp [State.run, e, e2], h2, by simp only [List.length_cons]; omega⟩

/-- Rounds: in each, every thread takes a turn. -/
theorem left_run_le {n : Nat} {disk : Nat → Nat → Bool} : ∀ (sched : List Nat) {s s' : State}, s.run n disk sched = some s' →
    s'.left n ≤ s.left n
  | [], s, s', h => by cases h; exact Nat.le_refl _
  | t :: sched, s, s', h => by
    simp only [State.run, Option.bind_eq_some_iff] at h
    obtain ⟨s1, e, h1⟩ := h
    have := left_run_le sched h1
    rcases left_step e with ⟨e', _⟩ | e'
    · rw [← e']; exact this
    · omega

/-- If a run changes nothing, none of its steps did. -/
theorem left_run_lt {n : Nat} {disk : Nat → Nat → Bool} : ∀ (sched : List Nat) {s s' : State}, s.run n disk sched = some s' →
    s'.left n = s.left n → s' = s ∧ ∀ t ∈ sched, s.step n disk t = some s
  | [], s, s', h, _ => by cases h; exact ⟨rfl, by simp⟩
  | t :: sched, s, s', h, hl => by
    simp only [State.run, Option.bind_eq_some_iff] at h
    obtain ⟨s1, e, h1⟩ := h
    have hle := left_run_le sched h1
    rcases left_step e with ⟨e', _⟩ | e'
    · subst e'
      obtain ⟨g1, g2⟩ := left_run_lt sched h1 hl
      refine ⟨g1, fun u hu => ?_⟩
      rcases List.mem_cons.1 hu with rfl | hu
      · exact e
      · exact g2 u hu
    · omega

theorem run_append {n : Nat} {disk : Nat → Nat → Bool} : ∀ (a b : List Nat) (s : State),
    s.run n disk (a ++ b) = (s.run n disk a).bind fun s' => s'.run n disk b
  | [], b, s => rfl
  | t :: a, b, s => by
    simp only [List.cons_append, State.run]
    cases s.step n disk t with
    | none => rfl
    | some s1 => exact run_append a b s1

theorem step_length {n : Nat} {disk : Nat → Nat → Bool} {s s' : State} {t : Nat} (h : s.step n disk t = some s') :
    s'.threads.length = s.threads.length := by
  unfold State.step State.goto at h
  repeat' split at h
  all_goals first | (cases h; done) | (simp only [Option.some.injEq] at h; subst h; simp)

theorem run_length {n : Nat} {disk : Nat → Nat → Bool} : ∀ (sched : List Nat) {s s' : State}, s.run n disk sched = some s' →
    s'.threads.length = s.threads.length
  | [], s, s', h => by cases h; rfl
  | t :: sched, s, s', h => by
    simp only [State.run, Option.bind_eq_some_iff] at h
    obtain ⟨s1, e, h1⟩ := h
    rw [run_length sched h1, step_length e]

/-- Enough rounds finish the work. -/
theorem rounds_finish {P : Nat → Prop} {n : Nat} (hP : ∀ l, P l → l < n) {disk : Nat → Nat → Bool} :
    ∀ (rounds : List (List Nat)) {s : State}, Inv P disk s →
    (∀ r ∈ rounds, ∀ t < s.threads.length, t ∈ r) → s.left n < rounds.length →
    ∃ s', s.run n disk rounds.flatten = some s' ∧ s'.finished = true
  | [], s, h, _, hl => by simp at hl
  | r :: rounds, s, h, hr, hl => by
    obtain ⟨s1, e1, h1⟩ := inv_run hP r h
    obtain ⟨s2, e2, h2⟩ := inv_run hP rounds.flatten h1
    rw [List.flatten_cons, run_append, e1]
    by_cases he : s1.left n = s.left n
    · obtain ⟨rfl, hst⟩ := left_run_lt r e1 he
      refine ⟨s2, e2, ?_⟩
      cases hf : s1.finished with
      | true =>
        have key : ∀ (sched : List Nat) (s' : State), s1.run n disk sched = some s' → s' = s1 := by
          intro sched
          induction sched with
          | nil => intro s' e; cases e; rfl
          | cons t sched ih =>
            intro s' e
            have hstep : s1.step n disk t = some s1 := by
              by_cases ht : t < s1.threads.length
              · exact hst t (hr r (List.mem_cons_self ..) t ht)
              · unfold State.step
                rw [List.getElem?_eq_none (by omega)]
            simp only [State.run, hstep, Option.bind_some] at e
            exact ih s' e
        rw [key _ _ e2]; exact hf
      | false =>
        obtain ⟨t, s', e, hlt⟩ := progress hP h1 hf
        exfalso
        by_cases ht : t < s1.threads.length
        · rw [hst t (hr r (List.mem_cons_self ..) t ht)] at e
          cases e
          omega
        · unfold State.step at e
          rw [List.getElem?_eq_none (by omega)] at e
          cases e
          omega
    · have hle := left_run_le r e1
      obtain ⟨s3, e3, h3⟩ := rounds_finish hP rounds h1
        (fun r' hr' t ht => hr r' (List.mem_cons_of_mem _ hr') t (by rw [run_length r e1] at ht; exact ht))
        (by simp only [List.length_cons] at hl; omega)
      exact ⟨s3, e3, h3⟩

end MipLoad
end F3D
