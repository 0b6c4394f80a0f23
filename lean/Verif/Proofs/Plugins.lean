import Verif.Spec.Plugins

/-!
# Lemmas about plugins
-/

namespace F3D
namespace Plugins
open Factory (Str Class Creator)
open PatternMatch (splitAt tokens)

/-! ## Tokens -/

theorem tokens_word (seps : Str) : ∀ (w cur : Str), (∀ c ∈ w, c ∉ seps) → cur ++ w ≠ [] → tokens seps cur w = [cur ++ w]
  | [], cur, _, h => by
    rw [List.append_nil] at h ⊢
    simp [tokens, h]
  | c :: w, cur, h, hn => by
    rw [tokens, if_neg (h c (by simp)), tokens_word seps w (cur ++ [c]) (fun d hd => h d (by simp [hd])) (by simp)]
    simp

/-- The tokens before a separator and those after it. -/
theorem tokens_append (seps : Str) (c : Char) (hc : c ∈ seps) (b : Str) : ∀ (a cur : Str),
    tokens seps cur (a ++ c :: b) = tokens seps cur a ++ tokens seps [] b
  | [], cur => by
    rw [List.nil_append]
    by_cases h : cur = []
    · simp [h, tokens, hc]
    · simp [h, tokens, hc]
  | d :: a, cur => by
    rw [List.cons_append, tokens, tokens]
    have ih := tokens_append seps c hc b a
    by_cases hd : d ∈ seps
    · simp only [hd, if_true]
      by_cases h : cur = []
      · simp only [h, if_true]; exact ih []
      · simp only [h, if_false, ih [], List.cons_append]
    · simp only [hd, if_false]; exact ih _

theorem lastName (f : Str × Str) (h : '/' ∉ f.2) (hn : f.2 ≠ []) : (splitAt ['/'] (pathOf f)).getLast? = some f.2 := by
  have e : pathOf f = f.1 ++ '/' :: f.2 := by simp [pathOf]
  rw [e, splitAt, tokens_append _ _ (by simp), tokens_word _ f.2 [] (fun c hc hs => by
    rw [List.mem_singleton] at hs; subst hs; exact h hc) (by simpa using hn)]
  simp

theorem baseName_path (f : Str × Str) (h : '/' ∉ f.2) : baseName (pathOf f) = f.2 := by
  unfold baseName pathOf
  rw [List.reverse_append, List.reverse_append]
  have e : (['/'] : Str).reverse ++ f.1.reverse = '/' :: f.1.reverse := rfl
  rw [e, List.takeWhile_append_of_pos (by
    intro c hc
    rw [List.mem_reverse] at hc
    simp only [decide_eq_true_eq]
    rintro rfl; exact h hc)]
  simp

/-! ## Names of plugins -/

theorem tokens_dots (k : Nat) : tokens ['.'] [] (List.replicate k '.') = [] := by
  induction k with
  | zero => simp [tokens]
  | succ k ih => rw [List.replicate_succ, tokens]; simpa using ih

theorem tokens_last_dots (a : Str) (k : Nat) : tokens ['.'] [] (a ++ List.replicate k '.') = tokens ['.'] [] a := by
  cases k with
  | zero => simp
  | succ k => rw [List.replicate_succ, tokens_append _ _ (by simp), tokens_dots, List.append_nil]

theorem getLast_append_one {β : Type} (l : List β) (x : β) : (l ++ [x]).getLast? = some x := by simp

theorem split_at_last_dot (n : Str) : ('.' ∉ n) ∨ ∃ a b, n = a ++ '.' :: b ∧ '.' ∉ b := by
  induction n with
  | nil => left; simp
  | cons c n ih =>
    rcases ih with h | ⟨a, b, rfl, hb⟩
    · by_cases hc : c = '.'
      · right; exact ⟨[], n, by simp [hc], h⟩
      · left; simp only [List.mem_cons, not_or]; exact ⟨fun h => hc h.symm, h⟩
    · right; exact ⟨c :: a, b, rfl, hb⟩

theorem strip_dots (n : Str) : ∃ b k, n = b ++ List.replicate k '.' ∧ (b = [] ∨ ∃ c d, b = c ++ [d] ∧ d ≠ '.') := by
  suffices h : ∀ r : Str, ∃ b k, r.reverse = b ++ List.replicate k '.' ∧ (b = [] ∨ ∃ c d, b = c ++ [d] ∧ d ≠ '.') by
    simpa using h n.reverse
  intro r
  induction r with
  | nil => exact ⟨[], 0, by simp, .inl rfl⟩
  | cons x r ih =>
    by_cases hx : x = '.'
    · subst hx
      obtain ⟨b, k, h, hb⟩ := ih
      refine ⟨b, k + 1, ?_, hb⟩
      rw [List.reverse_cons, h, List.append_assoc, List.replicate_succ']
    · exact ⟨(x :: r).reverse, 0, by simp, .inr ⟨r.reverse, x, by simp, hx⟩⟩

theorem isShared_iff (n : Str) : isShared n = true ↔ Shared n := by
  constructor
  · intro h
    obtain ⟨b, k, rfl, hb⟩ := strip_dots n
    unfold isShared splitAt at h
    rw [tokens_last_dots] at h
    rcases hb with rfl | ⟨c, d, rfl, hd⟩
    · simp [tokens] at h
    · rcases split_at_last_dot (c ++ [d]) with hn | ⟨x, y, e, hy⟩
      · rw [tokens_word _ _ [] (fun z hz hs => by rw [List.mem_singleton] at hs; subst hs; exact hn hz) (by simp)] at h
        simp only [List.nil_append, List.getLast?_singleton, decide_eq_true_eq] at h
        exact ⟨[], k, by simp [h], .inl rfl⟩
      · have hy0 : y ≠ [] := by
          rintro rfl
          have := List.append_inj' e rfl
          simp only [List.cons.injEq, and_true] at this
          exact hd this.2
        rw [e, tokens_append _ _ (by simp), tokens_word _ y [] (fun z hz hs => by
          rw [List.mem_singleton] at hs; subst hs; exact hy hz) (by simpa using hy0)] at h
        simp only [List.nil_append, getLast_append_one, decide_eq_true_eq] at h
        exact ⟨x ++ ['.'], k, by rw [e, h]; simp, .inr ⟨x, rfl⟩⟩
  · rintro ⟨a, k, rfl, h⟩
    unfold isShared splitAt
    rw [tokens_last_dots]
    rcases h with rfl | ⟨b, rfl⟩
    · decide
    · have e : b ++ ['.'] ++ ['s', 'o'] = b ++ '.' :: ['s', 'o'] := by simp
      rw [e, tokens_append _ _ (by simp), tokens_word _ ['s', 'o'] [] (by decide) (by simp)]
      simp

theorem shared_ne_nil (n : Str) (h : isShared n = true) : n ≠ [] := by
  rintro rfl
  exact absurd h (by decide)

/-! ## Files -/

theorem sos_eq (W : World) : sos W = (files W).map pathOf := by
  unfold sos files dirs
  cases W.path with
  | none => rfl
  | some p =>
    simp only
    rw [List.map_flatMap]
    congr 1
    funext d
    unfold dirSos filesIn
    cases W.dir d with
    | none => rfl
    | some names => simp [pathOf, Function.comp_def]

/-- The name of a file can be found from its path. -/
def Named (fs : List (Str × Str)) : Prop := ∀ f ∈ fs, '/' ∉ f.2 ∧ f.2 ≠ []

theorem files_named (W : World) (h : Usual W) : Named (files W) := by
  intro f hf
  obtain ⟨d, -, hd⟩ := List.mem_flatMap.1 hf
  unfold filesIn at hd
  cases e : W.dir d with
  | none => rw [e] at hd; simp at hd
  | some names =>
    rw [e] at hd
    obtain ⟨n, hn, rfl⟩ := List.mem_map.1 hd
    obtain ⟨h1, h2⟩ := List.mem_filter.1 hn
    exact ⟨h d names e n h1, shared_ne_nil n h2⟩

theorem registration_eq (W : World) (f : Str × Str) : registration W (pathOf f) = pluginAt W f := by
  unfold registration pluginAt
  cases W.dl (pathOf f) with
  | none => rfl
  | some x => cases x <;> rfl

theorem firsts_seen (seen : List Str) : ∀ fs : List (Str × Str), (∀ f ∈ fs, f.2 ∈ seen) → firsts seen fs = []
  | [], _ => rfl
  | f :: fs, h => by
    rw [firsts, if_pos (h f (by simp))]
    exact firsts_seen seen fs fun g hg => h g (by simp [hg])

theorem firsts_append (seen : List Str) (gs : List (Str × Str)) : ∀ fs : List (Str × Str), (∀ f ∈ fs, f.2 ∈ seen) →
    firsts seen (fs ++ gs) = firsts seen gs
  | [], _ => rfl
  | f :: fs, h => by
    rw [List.cons_append, firsts, if_pos (h f (by simp))]
    exact firsts_append seen gs fs fun g hg => h g (by simp [hg])

theorem firsts_cover (fs : List (Str × Str)) : ∀ seen : List Str, ∀ f ∈ fs, f.2 ∈ seen ++ (firsts seen fs).map (·.2) := by
  induction fs with
  | nil => intro seen f hf; simp at hf
  | cons g fs ih =>
    intro seen f hf
    rw [firsts]
    by_cases hg : g.2 ∈ seen
    · rw [if_pos hg]
      rcases List.mem_cons.1 hf with rfl | hf
      · simp [hg]
      · exact ih seen f hf
    · rw [if_neg hg]
      have := ih (seen ++ [g.2])
      rcases List.mem_cons.1 hf with rfl | hf
      · simp
      · have := this f hf
        simpa using this

/-- The names are noted once. -/
theorem firsts_nodup (fs : List (Str × Str)) : ∀ seen : List Str, seen.Nodup → (seen ++ (firsts seen fs).map (·.2)).Nodup := by
  induction fs with
  | nil => intro seen h; simpa [firsts] using h
  | cons g fs ih =>
    intro seen h
    rw [firsts]
    by_cases hg : g.2 ∈ seen
    · rw [if_pos hg]; exact ih seen h
    · rw [if_neg hg]
      have := ih (seen ++ [g.2]) (by
        rw [List.nodup_append]
        refine ⟨h, by simp, ?_⟩
        intro a ha b hb
        rw [List.mem_singleton] at hb
        subst hb
        rintro rfl; exact hg ha)
      simpa using this

theorem firsts_length (fs : List (Str × Str)) : ∀ seen : List Str, (firsts seen fs).length ≤ fs.length := by
  induction fs with
  | nil => intro seen; simp [firsts]
  | cons g fs ih =>
    intro seen
    rw [firsts]
    split
    · have := ih seen; simp only [List.length_cons]; omega
    · have := ih (seen ++ [g.2]); simp only [List.length_cons]; omega

theorem firsts_sub (fs : List (Str × Str)) : ∀ seen : List Str, ∀ f ∈ firsts seen fs, f ∈ fs ∧ f.2 ∉ seen := by
  induction fs with
  | nil => intro seen f hf; simp [firsts] at hf
  | cons g fs ih =>
    intro seen f hf
    rw [firsts] at hf
    by_cases hg : g.2 ∈ seen
    · rw [if_pos hg] at hf
      obtain ⟨h1, h2⟩ := ih seen f hf
      exact ⟨by simp [h1], h2⟩
    · rw [if_neg hg] at hf
      rcases List.mem_cons.1 hf with rfl | hf
      · exact ⟨by simp, hg⟩
      · obtain ⟨h1, h2⟩ := ih _ f hf
        exact ⟨by simp [h1], fun h => h2 (by simp [h])⟩

/-! ## The loop -/

/-- A name is noted. -/
def St.note (s : St) (n : Str) : St := { s with loaded := s.loaded ++ [n] }

theorem visit_cons (W : World) (load : St → Option St) (f : Str × Str) (h : '/' ∉ f.2) (hn : f.2 ≠ []) (rest : List Str) (s : St) :
    visit W load (pathOf f :: rest) s =
      if f.2 ∈ s.loaded then visit W load rest s
      else match pluginAt W f with
      | none => visit W load rest (s.note f.2)
      | some p => (singletonWith load (s.note f.2)).bind fun r => visit W load rest (call (pathOf f) p r.1 r.2) := by
  rw [visit, lastName f h hn, registration_eq]
  rfl

theorem visit_seen (W : World) (load : St → Option St) : ∀ (fs : List (Str × Str)), Named fs → ∀ s : St,
    (∀ f ∈ fs, f.2 ∈ s.loaded) → visit W load (fs.map pathOf) s = some s
  | [], _, _, _ => rfl
  | f :: fs, hn, s, h => by
    rw [List.map_cons, visit_cons W load f (hn f (by simp)).1 (hn f (by simp)).2, if_pos (h f (by simp))]
    exact visit_seen W load fs (fun g hg => hn g (by simp [hg])) s fun g hg => h g (by simp [hg])

/-- What happens when there is a factory. -/
def withFactory (i : Nat) (s : St) (fs : List (Str × Str)) (ps : List (Str × Plugin)) : St :=
  { s with
    loaded := s.loaded ++ fs.map (·.2)
    made := s.made.modify i (Factory.run (classes ps))
    called := s.called ++ ps.map fun p => (p.1, i) }

theorem run_append_calls (a b : List (Class × Creator)) (s : Factory.State) :
    Factory.run (a ++ b) s = Factory.run b (Factory.run a s) := by
  unfold Factory.run; rw [List.foldl_append]

theorem modify_run_nil (l : List Factory.State) (i : Nat) : l.modify i (Factory.run []) = l := by
  have : Factory.run [] = id := rfl
  rw [this, List.modify_id]

theorem modify_twice (l : List Factory.State) (i : Nat) (f g : Factory.State → Factory.State) :
    (l.modify i f).modify i g = l.modify i (fun x => g (f x)) := by
  apply List.ext_getElem?
  intro j
  rw [List.getElem?_modify, List.getElem?_modify, List.getElem?_modify]
  by_cases h : i = j
  · cases l[j]? <;> simp [h]
  · cases l[j]? <;> simp [h]

theorem visit_factory (W : World) (load : St → Option St) (i : Nat) : ∀ (fs : List (Str × Str)), Named fs → ∀ s : St, s.inst = some i →
    visit W load (fs.map pathOf) s = some (withFactory i s (firsts s.loaded fs) (plugins W (firsts s.loaded fs)))
  | [], _, s, _ => by
    show some s = some _
    simp only [withFactory, firsts, plugins, classes, List.map_nil, List.filterMap_nil, List.flatMap_nil, List.append_nil, modify_run_nil]
  | f :: fs, hn, s, hi => by
    have hn' : Named fs := fun g hg => hn g (by simp [hg])
    rw [List.map_cons, visit_cons W load f (hn f (by simp)).1 (hn f (by simp)).2, firsts]
    by_cases hf : f.2 ∈ s.loaded
    · rw [if_pos hf, if_pos hf]
      exact visit_factory W load i fs hn' s hi
    · rw [if_neg hf, if_neg hf]
      cases hp : pluginAt W f with
      | none =>
        simp only
        rw [visit_factory W load i fs hn' (s.note f.2) hi]
        simp only [withFactory, St.note, plugins, List.filterMap_cons, hp, Option.map_none, List.map_cons, List.append_assoc,
          List.cons_append, List.nil_append]
      | some p =>
        have e : singletonWith load (s.note f.2) = some (i, s.note f.2) := by
          show (match s.inst with | some i => _ | none => _) = _
          rw [hi]
        simp only [e, Option.bind_some]
        rw [visit_factory W load i fs hn' (call (pathOf f) p i (s.note f.2)) hi]
        simp only [withFactory, St.note, call, plugins, List.filterMap_cons, hp, Option.map_some, List.map_cons, List.append_assoc,
          List.cons_append, List.nil_append, classes, List.flatMap_cons, modify_twice]
        congr 3
        funext x
        rw [run_append_calls]

/-- What happens when there is none: a factory for each plugin. -/
def withoutFactory (s : St) (fs : List (Str × Str)) (ps : List (Str × Plugin)) : St where
  loaded := s.loaded ++ fs.map (·.2)
  inst := if ps = [] then none else some s.made.length
  made := s.made ++ ps.map fun p => Factory.run p.2.registers Factory.init
  gone := s.gone ++ (List.range' (s.made.length + 1) (ps.length - 1)).reverse
  called := s.called ++ ((ps.zipIdx s.made.length).map fun x => (x.1.1, x.2)).reverse

theorem modify_middle (l m : List Factory.State) (x : Factory.State) (f : Factory.State → Factory.State) :
    (l ++ [x] ++ m).modify l.length f = l ++ f x :: m := by
  apply List.ext_getElem?
  intro j
  rw [List.getElem?_modify, show l ++ [x] ++ m = l ++ x :: m by simp]
  rcases Nat.lt_trichotomy j l.length with h | h | h
  · rw [List.getElem?_append_left h, List.getElem?_append_left h]
    have : ¬ l.length = j := by omega
    cases l[j]? <;> simp [this]
  · subst h; simp
  · rw [List.getElem?_append_right (Nat.le_of_lt h), List.getElem?_append_right (Nat.le_of_lt h)]
    have : ¬ l.length = j := by omega
    obtain ⟨d, hd⟩ : ∃ d, j - l.length = d + 1 := ⟨j - l.length - 1, by omega⟩
    rw [hd]
    cases m[d]? <;> simp [this]

theorem visit_none (W : World) (n : Nat) (hn : Named (files W))
    (ih : ∀ s : St, s.inst = none → (firsts s.loaded (files W)).length < n →
      loadN W n s = some (withoutFactory s (firsts s.loaded (files W)) (unloaded W s))) :
    ∀ (fs pre : List (Str × Str)), files W = pre ++ fs → ∀ s : St, (∀ f ∈ pre, f.2 ∈ s.loaded) → s.inst = none →
      (firsts s.loaded fs).length < n + 1 →
      visit W (loadN W n) (fs.map pathOf) s = some (withoutFactory s (firsts s.loaded fs) (plugins W (firsts s.loaded fs)))
  | [], _, _, s, _, hi, _ => by
    obtain ⟨a, b, c, d, e⟩ := s
    simp only at hi
    subst hi
    simp [visit, withoutFactory, firsts, plugins]
  | f :: fs, pre, hfs, s, hpre, hi, hlen => by
    have hnf : Named (f :: fs) := fun g hg => hn g (by rw [hfs]; exact List.mem_append_right _ hg)
    have hfs' : files W = (pre ++ [f]) ++ fs := by rw [hfs]; simp
    rw [List.map_cons, visit_cons W _ f (hnf f (by simp)).1 (hnf f (by simp)).2, firsts]
    rw [firsts] at hlen
    by_cases hf : f.2 ∈ s.loaded
    · rw [if_pos hf, if_pos hf]
      rw [if_pos hf] at hlen
      refine visit_none W n hn ih fs (pre ++ [f]) hfs' s ?_ hi hlen
      intro g hg
      rcases List.mem_append.1 hg with hg | hg
      · exact hpre g hg
      · rw [List.mem_singleton] at hg; subst hg; exact hf
    · rw [if_neg hf, if_neg hf]
      rw [if_neg hf, List.length_cons] at hlen
      have hpre' : ∀ g ∈ pre ++ [f], g.2 ∈ s.loaded ++ [f.2] := by
        intro g hg
        rcases List.mem_append.1 hg with hg | hg
        · simp [hpre g hg]
        · rw [List.mem_singleton] at hg; subst hg; simp
      cases hp : pluginAt W f with
      | none =>
        simp only
        rw [visit_none W n hn ih fs (pre ++ [f]) hfs' (s.note f.2) hpre' hi (by simp only [St.note]; omega)]
        have hps : plugins W (f :: firsts (s.loaded ++ [f.2]) fs) = plugins W (firsts (s.loaded ++ [f.2]) fs) := by
          simp [plugins, List.filterMap_cons, hp]
        rw [hps]
        simp only [withoutFactory, St.note, List.map_cons, List.append_assoc, List.cons_append, List.nil_append]
        rfl
      | some p =>
        have hT : firsts (s.loaded ++ [f.2]) (files W) = firsts (s.loaded ++ [f.2]) fs := by
          rw [hfs']; exact firsts_append _ _ _ hpre'
        have hl := ih { s.note f.2 with made := s.made ++ [Factory.init] } hi (by
          show (firsts (s.loaded ++ [f.2]) (files W)).length < n
          rw [hT]; omega)
        have e : singletonWith (loadN W n) (s.note f.2) = some (s.made.length, reset s.made.length
            (withoutFactory { s.note f.2 with made := s.made ++ [Factory.init] } (firsts (s.loaded ++ [f.2]) fs)
              (plugins W (firsts (s.loaded ++ [f.2]) fs)))) := by
          show (match s.inst with | some i => _ | none => _) = _
          rw [hi]
          show Option.map _ (loadN W n { s.note f.2 with made := s.made ++ [Factory.init] }) = _
          rw [hl]
          have hw : unloaded W { s.note f.2 with made := s.made ++ [Factory.init] } = plugins W (firsts (s.loaded ++ [f.2]) fs) := by
            rw [← hT]; rfl
          rw [hw]
          have hT' : firsts ({ s.note f.2 with made := s.made ++ [Factory.init] } : St).loaded (files W) =
            firsts (s.loaded ++ [f.2]) fs := hT
          rw [hT']
          rfl
        simp only [e, Option.bind_some]
        rw [visit_seen W _ fs (fun g hg => hnf g (by simp [hg])) _ (by
          intro g hg
          have := firsts_cover fs (s.loaded ++ [f.2]) g hg
          simpa [call, reset, withoutFactory, St.note] using this)]
        generalize firsts (s.loaded ++ [f.2]) fs = T
        have hps : plugins W (f :: T) = (pathOf f, p) :: plugins W T := by
          simp [plugins, List.filterMap_cons, hp]
        rw [hps]
        generalize plugins W T = R
        obtain ⟨ld, ins, md, gn, cl⟩ := s
        simp only at hi
        subst hi
        simp only [withoutFactory, call, reset, St.note, Option.some.injEq, St.mk.injEq, List.map_cons, List.append_assoc,
          List.cons_append, List.nil_append, List.length_cons, List.length_append, List.length_nil]
        refine ⟨trivial, ?_, ?_, ?_, ?_⟩
        · simp
        · have := modify_middle md (R.map fun p => Factory.run p.2.registers Factory.init) Factory.init (Factory.run p.registers)
          simpa using this
        · cases R with
          | nil => simp
          | cons r R => simp [List.range'_succ]
        · simp [List.zipIdx_cons]

theorem loadN_none (W : World) (hn : Named (files W)) : ∀ n, ∀ s : St, s.inst = none → (firsts s.loaded (files W)).length < n →
    loadN W n s = some (withoutFactory s (firsts s.loaded (files W)) (unloaded W s))
  | 0, _, _, h => absurd h (by omega)
  | n + 1, s, hi, h => by
    rw [loadN, sos_eq]
    exact visit_none W n hn (loadN_none W hn n) (files W) [] rfl s (by simp) hi h

theorem load_none (W : World) (hn : Named (files W)) (s : St) (hi : s.inst = none) :
    loadPlugins W s = some (withoutFactory s (firsts s.loaded (files W)) (unloaded W s)) := by
  unfold loadPlugins
  refine loadN_none W hn _ s hi ?_
  rw [sos_eq, List.length_map]
  have := firsts_length (files W) s.loaded
  omega

theorem load_some (W : World) (hn : Named (files W)) (s : St) (i : Nat) (hi : s.inst = some i) :
    loadPlugins W s = some (withFactory i s (firsts s.loaded (files W)) (unloaded W s)) := by
  unfold loadPlugins
  rw [loadN, sos_eq]
  exact visit_factory W _ i (files W) hn s hi

theorem singleton_some (W : World) (s : St) (i : Nat) (hi : s.inst = some i) : singleton W s = some (i, s) := by
  show (match s.inst with | some i => _ | none => _) = _
  rw [hi]

theorem singleton_none (W : World) (hn : Named (files W)) (s : St) (hi : s.inst = none) :
    singleton W s = some (s.made.length, reset s.made.length
      (withoutFactory { s with made := s.made ++ [Factory.init] } (firsts s.loaded (files W)) (unloaded W s))) := by
  show (match s.inst with | some i => _ | none => _) = _
  rw [hi]
  show Option.map _ (loadPlugins W { s with made := s.made ++ [Factory.init] }) = _
  rw [load_none W hn { s with made := s.made ++ [Factory.init] } hi]
  rfl

end Plugins
end F3D
