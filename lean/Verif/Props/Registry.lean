import Verif.Model.Registry

/-!
# Class factory, reference counts and the field cache (C59, C60, C48)
-/

namespace F3D.Props

/-- Induction from the right. -/
theorem snocInd {α : Type} {motive : List α → Prop} (nil : motive [])
    (append_singleton : ∀ l a, motive l → motive (l ++ [a])) (l : List α) : motive l := by
  have h : ∀ r : List α, motive r.reverse := by
    intro r
    induction r with
    | nil => exact nil
    | cons a r ih => rw [List.reverse_cons]; exact append_singleton _ a ih
  simpa using h l.reverse

section C59
open F3D.Factory

/-! ## C59: specification -/

/-- The class name a registration is filed under: `Class<type>` for fields. -/
def filedUnder (k : Class) (cls type : List Char) : List Char :=
  if k = .field then cls ++ "<".toList ++ type ++ ">".toList else cls

/-- The registration succeeds in making an object of that name. -/
def Provides (call : Class × Creator) (k : Class) (n : List Char) : Prop :=
  call.1 = k ∧ ∃ cls type, call.2.makes = some (cls, type) ∧ n = filedUnder k cls type

instance (call : Class × Creator) (k : Class) (n : List Char) : Decidable (Provides call k n) :=
  match h : call.2.makes with
  | none => isFalse (by rintro ⟨_, c, t, h', _⟩; rw [h] at h'; cases h')
  | some (c, t) =>
    if h' : call.1 = k ∧ n = filedUnder k c t then isTrue ⟨h'.1, c, t, h, h'.2⟩
    else isFalse (by rintro ⟨a, c', t', e, b⟩; rw [h] at e; cases e; exact h' ⟨a, b⟩)

/-! ## Proofs -/

theorem key_filed (k : Class) (i : List Char × List Char) : key k i = filedUnder k i.1 i.2 := by
  cases k <;> simp [key, filedUnder]

theorem register_create (k : Class) (n : List Char) (k' : Class) (c : Creator) (s : Factory.State) :
    create k n (register k' c s) =
      match create k n s with
      | some d => some d
      | none => if Provides (k', c) k n then some c else none := by
  cases hm : c.makes with
  | none =>
    have : ¬ Provides (k', c) k n := by rintro ⟨_, a, b, h, _⟩; simp [hm] at h
    simp only [register, hm, if_neg this]
    split <;> simp_all
  | some i =>
    have hp : Provides (k', c) k n ↔ k' = k ∧ n = key k i := by
      constructor
      · rintro ⟨a, x, y, h, e⟩
        simp only [hm, Option.some.injEq] at h; subst h
        exact ⟨a, by rw [key_filed]; exact e⟩
      · rintro ⟨a, e⟩
        exact ⟨a, i.1, i.2, by simp [hm], by rw [← key_filed]; exact e⟩
    simp only [register, hm]
    cases hl : lookup (s.creators k') (key k' i) with
    | some d =>
      have : create k n s = none → ¬ Provides (k', c) k n := by
        intro h0 h
        obtain ⟨rfl, rfl⟩ := hp.1 h
        simp [create, hl] at h0
      simp only
      split
      · simp_all
      · rename_i h0; simp [this h0, h0]
    | none =>
      simp only
      by_cases hk : k = k'
      · subst hk
        by_cases hn : n = key k i
        · subst hn
          have hc : create k (key k i) s = none := hl
          simp only [hc, if_pos (hp.2 ⟨rfl, rfl⟩)]
          simp [create, lookup]
        · have hnp : ¬ Provides (k, c) k n := fun h => hn (hp.1 h).2
          simp only [if_neg hnp]
          have : create k n
              { creators := fun k'' => if k'' = k then (key k i, c) :: s.creators k'' else s.creators k''
                names := fun k'' =>
                  if k'' = nameList k then (if key k i ∈ s.names k'' then s.names k'' else s.names k'' ++ [key k i])
                  else s.names k'' } = create k n s := by
            simp [create, lookup, Ne.symm hn]
          rw [this]
          cases create k n s <;> rfl
      · have hnp : ¬ Provides (k', c) k n := fun h => hk (hp.1 h).1.symm
        simp only [if_neg hnp, create, if_neg hk]
        cases lookup (s.creators k) n <;> rfl

/-- **First registration wins**: after any sequence of registrations, a class is created by the first registered
creation function that provides its name, and by none if there is none. -/
theorem C59_first_registration (calls : List (Class × Creator)) (k : Class) (n : List Char) :
    create k n (run calls init) = (calls.find? (fun c => Provides c k n)).map (·.2) := by
  have key : ∀ (calls : List (Class × Creator)) (s : Factory.State),
      create k n (run calls s) =
        match create k n s with
        | some d => some d
        | none => (calls.find? (fun c => Provides c k n)).map (·.2) := by
    intro calls
    induction calls with
    | nil => intro s; simp only [run, List.foldl_nil, List.find?_nil, Option.map_none]; cases create k n s <;> rfl
    | cons c cs ih =>
      intro s
      rw [show run (c :: cs) s = run cs (register c.1 c.2 s) from rfl, ih, register_create]
      cases hc : create k n s with
      | some d => rfl
      | none =>
        by_cases hp : Provides c k n
        · have : Provides (c.1, c.2) k n := hp
          simp [hp]
        · have : ¬ Provides (c.1, c.2) k n := hp
          simp [hp]
  have := key calls init
  simpa [create, init, lookup] using this

/-- **Later registrations change nothing** for names that can be created already. -/
theorem C59_stable (calls more : List (Class × Creator)) (k : Class) (n : List Char) (c : Creator)
    (h : create k n (run calls init) = some c) : create k n (run (calls ++ more) init) = some c := by
  rw [C59_first_registration] at h ⊢
  rw [List.find?_append]
  cases hf : calls.find? (fun c => Provides c k n) with
  | none => simp [hf] at h
  | some d => simpa [hf] using h

/-- The kinds share a name list: mapping classes and mapping IO classes are listed together. -/
def listedWith (k k' : Class) : Prop := k' = k ∨ (k = .mapping ∧ k' = .mappingIO)

theorem nameList_ne (k : Class) (k' : Class) (h : k ≠ .mappingIO) : k = nameList k' ↔ listedWith k k' := by
  cases k <;> cases k' <;> simp_all [nameList, listedWith]

/-- **The name lists** hold exactly the names that can be created, each once. -/
theorem C59_names (calls : List (Class × Creator)) (k : Class) (hk : k ≠ .mappingIO) :
    ((run calls init).names k).Nodup ∧
      ∀ n, n ∈ (run calls init).names k ↔ ∃ k', listedWith k k' ∧ ∃ c ∈ calls, Provides c k' n := by
  have step : ∀ (calls : List (Class × Creator)) (s : Factory.State) (P : Class → List Char → Prop),
      (∀ k' n, P k' n ↔ (create k' n s).isSome = true) →
      ((s.names k).Nodup ∧ ∀ n, n ∈ s.names k ↔ ∃ k', listedWith k k' ∧ P k' n) →
      ((run calls s).names k).Nodup ∧
        ∀ n, n ∈ (run calls s).names k ↔ ∃ k', listedWith k k' ∧ (P k' n ∨ ∃ c ∈ calls, Provides c k' n) := by
    intro calls
    induction calls with
    | nil => intro s P _ h; simpa [run] using h
    | cons c cs ih =>
      intro s P hP h
      rw [show run (c :: cs) s = run cs (register c.1 c.2 s) from rfl]
      have hP' : ∀ k' n, (P k' n ∨ Provides c k' n) ↔ (create k' n (register c.1 c.2 s)).isSome = true := by
        intro k' n
        rw [register_create, hP]
        cases hc : create k' n s with
        | some d => simp
        | none =>
          by_cases hp : Provides (c.1, c.2) k' n
          · have : Provides c k' n := hp
            simp [this]
          · have : ¬ Provides c k' n := hp
            simp [this]
      have hn : ((register c.1 c.2 s).names k).Nodup ∧
          ∀ n, n ∈ (register c.1 c.2 s).names k ↔ ∃ k', listedWith k k' ∧ (P k' n ∨ Provides c k' n) := by
        cases hm : c.2.makes with
        | none =>
          have : ∀ k' n, ¬ Provides c k' n := by rintro k' n ⟨_, a, b, e, _⟩; simp [hm] at e
          simp only [register, hm, this, or_false]
          exact h
        | some i =>
          have hp : ∀ k' n, Provides c k' n ↔ c.1 = k' ∧ n = key k' i := by
            intro k' n
            constructor
            · rintro ⟨a, x, y, e, b⟩
              simp only [hm, Option.some.injEq] at e; subst e
              exact ⟨a, by rw [key_filed]; exact b⟩
            · rintro ⟨a, b⟩
              exact ⟨a, i.1, i.2, by simp [hm], by rw [← key_filed]; exact b⟩
          simp only [register, hm]
          cases hl : lookup (s.creators c.1) (key c.1 i) with
          | some d =>
            refine ⟨h.1, fun n => ?_⟩
            simp only
            rw [h.2]
            constructor
            · rintro ⟨k', a, b⟩; exact ⟨k', a, Or.inl b⟩
            · rintro ⟨k', a, b | b⟩
              · exact ⟨k', a, b⟩
              · obtain ⟨rfl, rfl⟩ := (hp k' n).1 b
                exact ⟨c.1, a, (hP _ _).2 (by simp [create, hl])⟩
          | none =>
            simp only
            by_cases hkk : k = nameList c.1
            · rw [if_pos hkk]
              have hlw := (nameList_ne k c.1 hk).1 hkk
              by_cases hin : key c.1 i ∈ s.names k
              · rw [if_pos hin]
                refine ⟨h.1, fun n => ?_⟩
                rw [h.2]
                constructor
                · rintro ⟨k', a, b⟩; exact ⟨k', a, Or.inl b⟩
                · rintro ⟨k', a, b | b⟩
                  · exact ⟨k', a, b⟩
                  · obtain ⟨rfl, rfl⟩ := (hp k' n).1 b
                    exact (h.2 _).1 hin
              · rw [if_neg hin]
                refine ⟨?_, fun n => ?_⟩
                · rw [List.nodup_append]
                  refine ⟨h.1, by simp, ?_⟩
                  intro a ha b hb e
                  simp only [List.mem_singleton] at hb
                  subst hb; subst e; exact hin ha
                · rw [List.mem_append, h.2, List.mem_singleton]
                  constructor
                  · rintro (⟨k', a, b⟩ | rfl)
                    · exact ⟨k', a, Or.inl b⟩
                    · exact ⟨c.1, hlw, Or.inr ((hp _ _).2 ⟨rfl, rfl⟩)⟩
                  · rintro ⟨k', a, b | b⟩
                    · exact Or.inl ⟨k', a, b⟩
                    · obtain ⟨rfl, rfl⟩ := (hp k' n).1 b
                      exact Or.inr rfl
            · rw [if_neg hkk]
              refine ⟨h.1, fun n => ?_⟩
              rw [h.2]
              constructor
              · rintro ⟨k', a, b⟩; exact ⟨k', a, Or.inl b⟩
              · rintro ⟨k', a, b | b⟩
                · exact ⟨k', a, b⟩
                · obtain ⟨rfl, rfl⟩ := (hp k' n).1 b
                  exact absurd ((nameList_ne k c.1 hk).2 a) hkk
      have := ih _ (fun k' n => P k' n ∨ Provides c k' n) hP' hn
      simp only [List.mem_cons, exists_eq_or_imp]
      simpa only [or_assoc] using this
  have := step calls init (fun _ _ => False) (by intro k' n; simp [create, init, lookup])
    (by simp [init])
  simpa using this

example : create .field "Dense<float>".toList
    (run [(.field, ⟨0, some ("Dense".toList, "float".toList)⟩), (.fieldIO, ⟨1, some ("Dense".toList, [])⟩),
      (.field, ⟨2, none⟩), (.field, ⟨3, some ("Dense".toList, "float".toList)⟩)] init) =
    some ⟨0, some ("Dense".toList, "float".toList)⟩ := by decide

end C59

section C60
open F3D.Refs

/-! ## C60 -/

/-- References held after a history of adds and releases. -/
def held (ops : List Op) : Int := (ops.count .add : Int) - ops.count .release

theorem held_cons_add (ops : List Op) : held (.add :: ops) = held ops + 1 := by
  simp [held]; omega

theorem held_append (a b : List Op) : held (a ++ b) = held a + held b := by
  simp [held, List.count_append]; omega

/-- **Sequential use**: as long as the references go to zero only at the end, the object is never deleted before,
never used after, and deleted exactly once when the last reference goes. -/
theorem C60_sequential (ops : List Op) (hne : ops ≠ [])
    (hpos : ∀ p q, p ++ q = ops → p ≠ [] → q ≠ [] → 0 < held p) (hend : 0 ≤ held ops) :
    (runOps fresh ops).deletes = (if held ops = 0 then 1 else 0) ∧ (runOps fresh ops).usedAfter = false := by
  have alive : ∀ (p : List Op), (∀ a b, a ++ b = p → a ≠ [] → 0 < held a) →
      runOps fresh p = ⟨held p, 0, false⟩ := by
    intro p
    induction p using snocInd with
    | nil => intro _; rfl
    | append_singleton p o ih =>
      intro h
      have hp := ih (fun a b e ha => h a (b ++ [o]) (by rw [← e]; simp) ha)
      have hlast := h (p ++ [o]) [] (by simp) (by simp)
      rw [show runOps fresh (p ++ [o]) = apply (runOps fresh p) o by simp [runOps], hp]
      cases o with
      | add => simp [apply, ref, touch, held_append]; rfl
      | release =>
        rw [held_append, show held [Op.release] = -1 from rfl] at hlast
        have : held p - 1 ≠ 0 := by omega
        simp [apply, checkDelete, unref, touch, this, held_append]; rfl
  obtain ⟨p, o, rfl⟩ := List.eq_nil_or_concat ops |>.resolve_left hne |> fun ⟨a, b, h⟩ => (⟨a, b, by simpa using h⟩ : ∃ p o, ops = p ++ [o])
  have hp := alive p (fun a b e ha => hpos a (b ++ [o]) (by rw [← e]; simp) ha (by simp))
  rw [show runOps fresh (p ++ [o]) = apply (runOps fresh p) o by simp [runOps], hp, held_append] at *
  cases o with
  | add =>
    have h1 : held [Op.add] = 1 := rfl
    rw [h1] at hend ⊢
    have : 0 ≤ held p := by
      by_cases h0 : p = []
      · subst h0; decide
      · have := hpos p [Op.add] rfl h0 (by simp); omega
    rw [if_neg (by omega)]
    simp [apply, ref, touch]
  | release =>
    have h1 : held [Op.release] = -1 := rfl
    rw [h1] at hend ⊢
    by_cases h0 : held p + -1 = 0
    · rw [if_pos h0]
      have : held p - 1 = 0 := by omega
      simp [apply, checkDelete, unref, touch, this]
    · rw [if_neg h0]
      have : held p - 1 ≠ 0 := by omega
      simp [apply, checkDelete, unref, touch, this]

/-- The number of threads that have not yet started to release. -/
def waiting (pcs : List Pc) : Nat := pcs.count .start

theorem count_set (pcs : List Pc) (t : Nat) (a b c : Pc) (h : pcs[t]? = some a) :
    ((pcs.set t b).count c : Int) = pcs.count c - (if a = c then 1 else 0) + (if b = c then 1 else 0) := by
  induction pcs generalizing t with
  | nil => simp at h
  | cons x xs ih =>
    cases t with
    | zero =>
      simp only [List.getElem?_cons_zero, Option.some.injEq] at h
      subst h
      simp only [List.set_cons_zero, List.count_cons, beq_iff_eq]
      split <;> split <;> simp_all
    | succ t =>
      simp only [List.getElem?_cons_succ] at h
      have := ih t h
      simp only [List.set_cons_succ, List.count_cons, beq_iff_eq]
      split <;> omega

/-- **Any schedule**: the object is never deleted while a thread still holds its reference, and when all threads
have released it has been deleted at least once. -/
theorem C60_not_too_early (n : Nat) (hn : 0 < n) (sched : List Nat) :
    let s := runRace (raceStart n) sched
    (0 < s.obj.deletes → waiting s.pcs = 0) ∧ ((∀ pc ∈ s.pcs, pc = .done) → 0 < s.obj.deletes) := by
  have inv : ∀ sched, let s := runRace (raceStart n) sched
      s.obj.count = waiting s.pcs ∧ (0 < s.obj.deletes → waiting s.pcs = 0) ∧
        (waiting s.pcs = 0 → 0 < s.obj.deletes ∨ 0 < s.pcs.count .dropped) := by
    intro sched
    induction sched using snocInd with
    | nil =>
      simp [runRace, raceStart, waiting]
      omega
    | append_singleton l t ih =>
      rw [show runRace (raceStart n) (l ++ [t]) = step (runRace (raceStart n) l) t by simp [runRace]]
      generalize runRace (raceStart n) l = s at ih
      obtain ⟨h1, h2, h3⟩ := ih
      simp only [waiting] at *
      cases hp : s.pcs[t]? with
      | none => simp only [step, hp]; exact ⟨h1, h2, h3⟩
      | some pc =>
        have hpos : 0 < s.pcs.count pc := List.count_pos_iff.2 (List.mem_of_getElem? hp)
        cases pc with
        | done => simp only [step, hp]; exact ⟨h1, h2, h3⟩
        | start =>
          have c1 := count_set s.pcs t .start .dropped .start hp
          have c2 := count_set s.pcs t .start .dropped .dropped hp
          simp only [step, hp, unref, touch]
          simp at c1 c2
          refine ⟨by omega, fun h => by have := h2 h; omega, fun _ => Or.inr (by omega)⟩
        | dropped =>
          have c1 := count_set s.pcs t .dropped .done .start hp
          have c2 := count_set s.pcs t .dropped .done .dropped hp
          simp at c1 c2
          simp only [step, hp]
          by_cases h0 : s.obj.count = 0
          · rw [show checkDelete s.obj = { touch s.obj with deletes := s.obj.deletes + 1 } by
              simp [checkDelete, touch, h0]]
            simp only [touch]
            refine ⟨by omega, fun _ => by omega, fun _ => Or.inl (by simp)⟩
          · rw [show checkDelete s.obj = touch s.obj by simp [checkDelete, touch, h0]]
            simp only [touch]
            refine ⟨by omega, fun h => by have := h2 h; omega, fun h => ?_⟩
            omega
  obtain ⟨_, h2, h3⟩ := inv sched
  refine ⟨h2, fun h => ?_⟩
  have w : waiting (runRace (raceStart n) sched).pcs = 0 := by
    rw [waiting, List.count_eq_zero]; intro hm; have := h _ hm; cases this
  rcases h3 w with h' | h'
  · exact h'
  · have := List.count_pos_iff.1 h'
    have := h _ this; cases this

theorem pass1 (k m : Nat) : ∀ (c : Int), runRace ⟨⟨c, 0, false⟩, List.replicate k .dropped ++ List.replicate m .start⟩
    (List.range' k m) = ⟨⟨c - m, 0, false⟩, List.replicate (k + m) .dropped⟩ := by
  induction m generalizing k with
  | zero => intro c; simp [runRace]
  | succ m ih =>
    intro c
    have hs : step ⟨⟨c, 0, false⟩, List.replicate k .dropped ++ List.replicate (m + 1) .start⟩ k =
        ⟨⟨c - 1, 0, false⟩, List.replicate (k + 1) .dropped ++ List.replicate m .start⟩ := by
      have hg : (List.replicate k Pc.dropped ++ List.replicate (m + 1) Pc.start)[k]? = some .start := by
        rw [List.getElem?_append_right (by simp)]; simp
      have hset : (List.replicate k Pc.dropped ++ List.replicate (m + 1) Pc.start).set k .dropped =
          List.replicate (k + 1) .dropped ++ List.replicate m .start := by
        rw [List.set_append_right _ _ (by simp)]
        simp only [List.length_replicate, Nat.sub_self, List.replicate_succ, List.set_cons_zero]
        rw [← List.replicate_succ, List.replicate_succ', List.append_assoc]; rfl
      simp only [step, hg, hset, unref, touch]
      simp
    rw [List.range'_succ, runRace, List.foldl_cons, hs, ← runRace, ih (k + 1) (c - 1)]
    rw [show k + 1 + m = k + (m + 1) by omega]
    congr 2
    omega

theorem pass2 (k m : Nat) : ∀ (d : Nat) (u : Bool), ∃ u', runRace ⟨⟨0, d, u⟩, List.replicate k .done ++ List.replicate m .dropped⟩
    (List.range' k m) = ⟨⟨0, d + m, u'⟩, List.replicate (k + m) .done⟩ := by
  induction m generalizing k with
  | zero => intro d u; exact ⟨u, by simp [runRace]⟩
  | succ m ih =>
    intro d u
    have hs : step ⟨⟨0, d, u⟩, List.replicate k .done ++ List.replicate (m + 1) .dropped⟩ k =
        ⟨⟨0, d + 1, u || decide (0 < d)⟩, List.replicate (k + 1) .done ++ List.replicate m .dropped⟩ := by
      have hg : (List.replicate k Pc.done ++ List.replicate (m + 1) Pc.dropped)[k]? = some .dropped := by
        rw [List.getElem?_append_right (by simp)]; simp
      have hset : (List.replicate k Pc.done ++ List.replicate (m + 1) Pc.dropped).set k .done =
          List.replicate (k + 1) .done ++ List.replicate m .dropped := by
        rw [List.set_append_right _ _ (by simp)]
        simp only [List.length_replicate, Nat.sub_self, List.replicate_succ, List.set_cons_zero]
        rw [← List.replicate_succ, List.replicate_succ', List.append_assoc]; rfl
      simp only [step, hg, hset, checkDelete, touch]
      simp
    obtain ⟨u', hu⟩ := ih (k + 1) (d + 1) (u || decide (0 < d))
    refine ⟨u', ?_⟩
    rw [List.range'_succ, runRace, List.foldl_cons, hs, ← runRace, hu]
    rw [show k + 1 + m = k + (m + 1) by omega, show d + 1 + m = d + (m + 1) by omega]

/-- **Deleted many times**: for every number of threads there is a schedule in which each of them deletes the
object. -/
theorem C60_race_deletes_repeatedly (n : Nat) :
    ∃ sched, (∀ pc ∈ (runRace (raceStart n) sched).pcs, pc = .done) ∧ (runRace (raceStart n) sched).obj.deletes = n := by
  refine ⟨List.range' 0 n ++ List.range' 0 n, ?_⟩
  have h1 := pass1 0 n n
  obtain ⟨u, h2⟩ := pass2 0 n 0 false
  simp only [List.replicate_zero, List.nil_append, Nat.zero_add, Int.sub_self] at h1 h2
  rw [runRace, List.foldl_append, ← runRace, ← runRace, raceStart, h1, h2]
  simp

/-- **Use after free** is possible even when only one thread deletes. -/
theorem C60_race_reads_deleted :
    ∃ sched, (runRace (raceStart 2) sched).obj = ⟨0, 2, true⟩ := ⟨[0, 1, 1, 0], by decide⟩

/-- **Decrement and test in one step** deletes exactly once under every schedule and never touches the object
afterwards. -/
theorem C60_atomic_release (n : Nat) (hn : 0 < n) (sched : List Nat) :
    let s := runAtomic (raceStart n) sched
    s.obj.usedAfter = false ∧ s.obj.deletes = (if ∀ pc ∈ s.pcs, pc = .done then 1 else 0) := by
  have inv : ∀ sched, let s := runAtomic (raceStart n) sched
      s.obj.count = waiting s.pcs ∧ s.obj.usedAfter = false ∧ (∀ pc ∈ s.pcs, pc = .start ∨ pc = .done) ∧
        s.obj.deletes = (if waiting s.pcs = 0 then 1 else 0) := by
    intro sched
    induction sched using snocInd with
    | nil =>
      simp only [runAtomic, raceStart, waiting, List.foldl_nil, List.count_replicate_self, true_and]
      refine ⟨fun pc h => ?_, ?_⟩
      · rw [List.mem_replicate] at h; exact Or.inl h.2
      · rw [if_neg (by omega)]
    | append_singleton l t ih =>
      rw [show runAtomic (raceStart n) (l ++ [t]) = stepAtomic (runAtomic (raceStart n) l) t by simp [runAtomic]]
      generalize runAtomic (raceStart n) l = s at ih
      obtain ⟨h1, h2, h3, h4⟩ := ih
      have w : ∀ l, waiting l = l.count .start := fun _ => rfl
      rw [w] at h1
      cases hp : s.pcs[t]? with
      | none => simp only [stepAtomic, hp]; exact ⟨h1, h2, h3, h4⟩
      | some pc =>
        have hpos : 0 < s.pcs.count pc := List.count_pos_iff.2 (List.mem_of_getElem? hp)
        cases pc with
        | done => simp only [stepAtomic, hp]; exact ⟨h1, h2, h3, h4⟩
        | dropped => simp only [stepAtomic, hp]; exact ⟨h1, h2, h3, h4⟩
        | start =>
          have c1 := count_set s.pcs t .start .done .start hp
          simp at c1
          have hd : s.obj.deletes = 0 := by rw [h4, if_neg (by rw [w]; omega)]
          have hm : ∀ pc ∈ s.pcs.set t .done, pc = .start ∨ pc = .done := by
            intro pc hpc
            rcases List.mem_or_eq_of_mem_set hpc with h | h
            · exact h3 pc h
            · exact Or.inr h
          simp only [stepAtomic, hp, checkDelete, unref, touch, hd, h2]
          by_cases h0 : s.obj.count - 1 = 0
          · simp only [if_pos h0]
            refine ⟨by rw [w]; omega, by simp, hm, ?_⟩
            rw [if_pos (by rw [w]; omega)]
          · simp only [if_neg h0]
            refine ⟨by rw [w]; omega, by simp, hm, ?_⟩
            rw [if_neg (by rw [w]; omega)]
  obtain ⟨_, h2, h3, h4⟩ := inv sched
  refine ⟨h2, ?_⟩
  rw [h4]
  congr 1
  apply propext
  rw [waiting, List.count_eq_zero]
  constructor
  · intro h pc hpc
    rcases h3 pc hpc with rfl | rfl
    · exact absurd hpc h
    · rfl
  · intro h hm
    have := h _ hm; cases this

example : runOps fresh [.add, .add, .release, .release] = ⟨0, 1, false⟩ := by decide

end C60

section C48
open F3D.FieldCache

/-! ## C48: specification -/

/-- An event with its full request: a field of a type cached for a file, partition and layer, or the end of an
object. -/
inductive CacheEvent (τ : Type) where
  | cached (t : τ) (obj : Nat) (file partition layer : List Char)
  | ended (obj : Nat)

def CacheEvent.op {τ : Type} : CacheEvent τ → FieldCache.Op τ
  | .cached t o f p l => .cacheField t o f (layerPath p l)
  | .ended o => .die o

/-- The object cached last for exactly this request. -/
def lastCached {τ : Type} [DecidableEq τ] (t : τ) (f p l : List Char) : List (CacheEvent τ) → Option Nat
  | [] => none
  | e :: es =>
    match lastCached t f p l es with
    | some o => some o
    | none =>
      match e with
      | .cached t' o f' p' l' => if t' = t ∧ f' = f ∧ p' = p ∧ l' = l then some o else none
      | .ended _ => none

def Ended {τ : Type} (o : Nat) (es : List (CacheEvent τ)) : Prop := CacheEvent.ended o ∈ es

/-- Names as the file format allows them: without `/`. -/
def NoSlash {τ : Type} : CacheEvent τ → Prop
  | .cached _ _ _ p l => '/' ∉ p ∧ '/' ∉ l
  | .ended _ => True

/-! ## Proofs -/

theorem slash_unique (a a' b b' : List Char) (hb : '/' ∉ b) (hb' : '/' ∉ b') (h : a ++ '/' :: b = a' ++ '/' :: b') :
    a = a' ∧ b = b' := by
  have key : ∀ (x x' y y' : List Char), '/' ∉ x → '/' ∉ x' → x ++ '/' :: y = x' ++ '/' :: y' → x = x' ∧ y = y' := by
    intro x
    induction x with
    | nil =>
      intro x' y y' _ hx' h
      cases x' with
      | nil => simpa using h
      | cons c cs => simp only [List.nil_append, List.cons_append, List.cons.injEq] at h; simp [← h.1] at hx'
    | cons c cs ih =>
      intro x' y y' hx hx' h
      cases x' with
      | nil => simp only [List.nil_append, List.cons_append, List.cons.injEq] at h; simp [h.1] at hx
      | cons d ds =>
        simp only [List.cons_append, List.cons.injEq] at h
        simp only [List.mem_cons, not_or] at hx hx'
        have := ih ds y y' hx.2 hx'.2 h.2
        exact ⟨by rw [h.1, this.1], this.2⟩
  have hr := congrArg List.reverse h
  simp only [List.reverse_append, List.reverse_cons, List.append_assoc, List.singleton_append] at hr
  have := key b.reverse b'.reverse a.reverse a'.reverse (by simpa using hb) (by simpa using hb') hr
  exact ⟨by simpa using this.2, by simpa using this.1⟩

/-- **Requests do not collide**: the key determines file, partition and layer when the latter two contain no
slash (file names may). -/
theorem C48_keys_distinct (f f' p p' l l' : List Char) (hp : '/' ∉ p) (hp' : '/' ∉ p') (hl : '/' ∉ l) (hl' : '/' ∉ l') :
    key f (layerPath p l) = key f' (layerPath p' l') ↔ f = f' ∧ p = p' ∧ l = l' := by
  constructor
  · intro h
    simp only [key, layerPath, List.append_assoc, List.singleton_append] at h
    have h1 := slash_unique (f ++ '/' :: p) (f' ++ '/' :: p') l l' hl hl' (by simpa using h)
    have h2 := slash_unique f f' p p' hp hp' h1.1
    exact ⟨h2.1, h2.2, h1.2⟩
  · rintro ⟨rfl, rfl, rfl⟩; rfl

/-- With slashes in the names they do collide. -/
theorem C48_slash_collides : key "f".toList (layerPath "a/b".toList "c".toList) =
    key "f".toList (layerPath "a".toList "b/c".toList) ∧ ("a/b".toList ≠ "a".toList) := by decide

/-- **A lookup returns the live field cached last for exactly this file, partition, layer and element type**, and
nothing if there is none or it has ended. -/
theorem C48_get {τ : Type} [DecidableEq τ] (es : List (CacheEvent τ)) (hs : ∀ e ∈ es, NoSlash e) (t : τ)
    (f p l : List Char) (hp : '/' ∉ p) (hl : '/' ∉ l) (o : Nat) :
    get (run (es.map CacheEvent.op)) t f (layerPath p l) = some o ↔ lastCached t f p l es = some o ∧ ¬ Ended o es := by
  have inv : ∀ es : List (CacheEvent τ), (∀ e ∈ es, NoSlash e) →
      (((run (es.map CacheEvent.op)).cache t).find? (fun e => e.1 = key f (layerPath p l))).map (·.2) =
        lastCached t f p l es ∧ ∀ o, o ∈ (run (es.map CacheEvent.op)).dead ↔ Ended o es := by
    intro es
    have lc : ∀ (es : List (CacheEvent τ)) (e : CacheEvent τ), lastCached t f p l (es ++ [e]) =
        match lastCached t f p l [e] with
        | some o => some o
        | none => lastCached t f p l es := by
      intro es e
      induction es with
      | nil => cases h : lastCached t f p l [e] <;> simp [lastCached, h]
      | cons x xs ih =>
        have hc : ∀ ys : List (CacheEvent τ), lastCached t f p l (x :: ys) =
            match lastCached t f p l ys with
            | some o => some o
            | none => lastCached t f p l [x] := fun _ => rfl
        rw [List.cons_append, hc, hc, ih]
        cases lastCached t f p l [e] <;> rfl
    induction es using snocInd with
    | nil => intro _; simp [run, init, lastCached, Ended]
    | append_singleton es e ih =>
      intro h
      obtain ⟨i1, i2⟩ := ih (fun x hx => h x (by simp [hx]))
      have he := h e (by simp)
      rw [show run ((es ++ [e]).map CacheEvent.op) = apply (run (es.map CacheEvent.op)) e.op by simp [run], lc]
      cases e with
      | ended o =>
        refine ⟨?_, fun o' => ?_⟩
        · simpa [CacheEvent.op, apply, lastCached] using i1
        · have := i2 o'
          simp only [CacheEvent.op, apply, List.mem_cons, this, Ended, List.mem_append, List.mem_singleton]
          constructor
          · rintro (rfl | h)
            · simp
            · exact Or.inl h
          · rintro (h | h)
            · exact Or.inr h
            · simp at h; exact Or.inl h
      | cached t' o f' p' l' =>
        refine ⟨?_, fun o' => ?_⟩
        · simp only [CacheEvent.op, apply, lastCached]
          by_cases ht : t' = t
          · subst ht
            simp only [if_true, true_and]
            have hk := C48_keys_distinct f' f p' p l' l he.1 hp he.2 hl
            by_cases hq : f' = f ∧ p' = p ∧ l' = l
            · rw [if_pos hq]
              simp [hk.2 hq]
            · rw [if_neg hq]
              have hne : ¬ key f' (layerPath p' l') = key f (layerPath p l) := fun e => hq (hk.1 e)
              rw [List.find?_cons_of_neg (by simpa using hne)]
              simp only
              rw [← i1]
              congr 1
              rw [List.find?_filter]
              congr 1
              funext x
              by_cases hx : x.1 = key f (layerPath p l)
              · simp [hx, Ne.symm hne]
              · simp [hx]
          · have : ¬ t = t' := fun e => ht e.symm
            simp only [if_neg this, ht, false_and, if_false]
            exact i1
        · have := i2 o'
          simp only [CacheEvent.op, apply, this, Ended, List.mem_append, List.mem_singleton]
          simp
  obtain ⟨h1, h2⟩ := inv es hs
  unfold FieldCache.get
  cases hf : ((run (es.map CacheEvent.op)).cache t).find? (fun e => e.1 = key f (layerPath p l)) with
  | none =>
    rw [hf] at h1
    simp only [Option.map_none] at h1
    simp [← h1]
  | some e =>
    rw [hf] at h1
    simp only [Option.map_some] at h1
    rw [← h1]
    simp only [Option.some.injEq]
    by_cases hd : e.2 ∈ (run (es.map CacheEvent.op)).dead
    · rw [if_pos hd]
      simp only [reduceCtorEq, false_iff, not_and]
      rintro rfl h
      exact h ((h2 _).1 hd)
    · rw [if_neg hd]
      simp only [Option.some.injEq]
      constructor
      · rintro rfl; exact ⟨rfl, fun h => hd ((h2 _).2 h)⟩
      · exact fun h => h.1

/-- **A dying field can be handed out**: a lookup between the last release and the end of the destructor returns a
pointer to an object that is being destroyed. -/
theorem C48_dying_field_returned :
    ∃ sched : List RStep, (rrun ⟨1, false, false, none⟩ sched).got = some true :=
  ⟨[.unref, .destroy, .get, .expire], by decide⟩

/-- Without a release in progress a lookup returns a live object. -/
theorem C48_live_when_quiet (s : Resurrect) (h : 0 < s.count) (hd : s.destroying = false) (he : s.expired = false) :
    (rstep s .get).got = some false := by
  simp [rstep, he, hd]; omega

/-- As long as fewer references are released than were held, the object is not destroyed, and every lookup, whatever the
other thread does in between, returns it alive. -/
theorem C48_kept_alive (sched : List RStep) : ∀ s : Resurrect, s.destroying = false → s.expired = false →
    s.got ≠ some true → sched.count .unref < s.count →
    (rrun s sched).destroying = false ∧ (rrun s sched).expired = false ∧ (rrun s sched).got ≠ some true ∧
      ((rrun s sched).got = none → s.got = none ∧ RStep.get ∉ sched) := by
  induction sched with
  | nil => intro s h1 h2 h3 _; exact ⟨h1, h2, h3, fun h => ⟨h, by simp⟩⟩
  | cons x xs ih =>
    intro s h1 h2 h3 h4
    have key : (rstep s x).destroying = false ∧ (rstep s x).expired = false ∧ (rstep s x).got ≠ some true ∧
        xs.count .unref < (rstep s x).count ∧ ((rstep s x).got = none → s.got = none ∧ x ≠ .get) := by
      cases x with
      | unref =>
        rw [List.count_cons_self] at h4
        exact ⟨h1, h2, h3, by simp only [rstep]; omega, fun h => ⟨h, by simp⟩⟩
      | destroy =>
        rw [List.count_cons_of_ne (by simp)] at h4
        have : rstep s .destroy = s := by simp only [rstep]; rw [if_neg (by omega)]
        rw [this]
        exact ⟨h1, h2, h3, h4, fun h => ⟨h, by simp⟩⟩
      | expire =>
        rw [List.count_cons_of_ne (by simp)] at h4
        have : rstep s .expire = s := by simp [rstep, h1]
        rw [this]
        exact ⟨h1, h2, h3, h4, fun h => ⟨h, by simp⟩⟩
      | get =>
        rw [List.count_cons_of_ne (by simp)] at h4
        have h0 : s.count ≠ 0 := by omega
        have : rstep s .get = { s with count := s.count + 1, got := some false } := by simp [rstep, h2, h1, h0]
        rw [this]
        exact ⟨h1, h2, by simp, by simp only; omega, by simp⟩
    obtain ⟨k1, k2, k3, k4, k5⟩ := key
    obtain ⟨q1, q2, q3, q4⟩ := ih _ k1 k2 k3 k4
    refine ⟨q1, q2, q3, fun h => ?_⟩
    obtain ⟨r1, r2⟩ := q4 h
    exact ⟨(k5 r1).1, by simp [r2, Ne.symm (k5 r1).2]⟩

example : (rrun ⟨3, false, false, none⟩ [.unref, .destroy, .get, .unref, .destroy, .expire]).got = some false := by decide

/-- **A rewritten file is not noticed**: while the field read from the old file is alive, reading the same layer
returns it whatever happened to the file in between. -/
theorem C48_stale {τ : Type} [DecidableEq τ] (es : List (CacheEvent τ)) (t : τ) (o : Nat) (f p l : List Char)
    (hs : ∀ e ∈ es, NoSlash e) (hp : '/' ∉ p) (hl : '/' ∉ l) (h0 : ¬ Ended o es) :
    FieldCache.get (run ((es ++ [CacheEvent.cached t o f p l]).map CacheEvent.op)) t f (layerPath p l) = some o := by
  rw [C48_get _ _ t f p l hp hl]
  · constructor
    · have : ∀ es : List (CacheEvent τ), lastCached t f p l (es ++ [.cached t o f p l]) = some o := by
        intro es
        induction es with
        | nil => simp [lastCached]
        | cons x xs ih => simp only [List.cons_append, lastCached, ih]
      exact this es
    · simp only [Ended, List.mem_append, List.mem_singleton] at *
      simpa using h0
  · intro e he
    rcases List.mem_append.1 he with he | he
    · exact hs e he
    · rw [List.mem_singleton] at he; subst he; exact ⟨hp, hl⟩

example : get (run ([CacheEvent.cached "float" 7 "/x/f.f3d".toList "default.0".toList "density".toList,
    .cached "half" 8 "/x/f.f3d".toList "default.0".toList "density".toList, .ended 8].map CacheEvent.op)) "float"
    "/x/f.f3d".toList (layerPath "default.0".toList "density".toList) = some 7 := by decide

end C48
end F3D.Props
