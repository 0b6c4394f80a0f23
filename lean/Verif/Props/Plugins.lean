import Verif.Proofs.Plugins
import Verif.Props.Registry
import Mathlib.Tactic.Tauto

/-!
# C88: plugins and the class factory
-/

namespace F3D.Props
open Plugins
open Factory (Str Class Creator)

/-- **C88, names.** The files tried are those named `so`, or anything that ends in `.so`; dots at the end do not count. -/
theorem C88_names (n : Str) : isShared n = true ↔ Shared n := isShared_iff n

/-- The calls of registration functions when there is no factory yet: in reverse order, each with another factory. -/
def callsBackwards (first : Nat) (ps : List (Str × Plugin)) : List (Str × Nat) :=
  ((ps.zipIdx first).map fun x => (x.1.1, x.2)).reverse

theorem mem_callsBackwards (first : Nat) (ps : List (Str × Plugin)) (c : Str × Nat) (h : c ∈ callsBackwards first ps) :
    first ≤ c.2 ∧ c.2 < first + ps.length := by
  obtain ⟨⟨p, i⟩, hx, rfl⟩ := List.mem_map.1 (List.mem_reverse.1 h)
  have h1 := List.le_snd_of_mem_zipIdx hx
  have h2 := List.snd_lt_add_of_mem_zipIdx hx
  exact ⟨h1, by simpa using h2⟩

/-- **C88.** The first use of the factory ends, and calls the registration function of every plugin once, in reverse order. But every
one of them is given a factory that is deleted before the call ends, and the factory that the program gets knows no class. -/
theorem C88_classes_lost (W : World) (hW : Usual W) :
    ∃ s, singleton W new = some (0, s) ∧ s.inst = some 0 ∧ s.made[0]? = some Factory.init ∧ 0 ∉ s.gone ∧
      s.called = callsBackwards 1 (unloaded W new) ∧ ∀ c ∈ s.called, c.2 ∈ s.gone := by
  refine ⟨_, singleton_none W (files_named W hW) new rfl, rfl, rfl, ?_, rfl, ?_⟩
  · generalize unloaded W new = ps
    simp only [reset, withoutFactory, new]
    intro h
    rcases List.mem_append.1 h with h | h
    · rw [List.nil_append, List.mem_reverse, List.mem_range'_1] at h
      simp at h
    · rw [Option.mem_toList] at h
      split at h <;> simp at h
  · intro c hc
    have hb := mem_callsBackwards 1 (unloaded W new) c hc
    generalize unloaded W new = ps at hb ⊢
    cases ps with
    | nil => simp at hb; omega
    | cons p ps =>
      simp only [reset, withoutFactory, new, List.nil_append, List.length_nil, List.length_cons]
      simp only [List.length_cons] at hb
      rw [List.mem_append, List.mem_reverse, List.mem_range'_1]
      by_cases h1 : c.2 = 1
      · right; simp [h1]
      · left; omega

theorem library_run : ∀ (k : Class) (n : Str), Factory.create k n (Factory.run library Factory.init) =
    (library.find? (fun c => Provides c k n)).map (·.2) := fun k n => C59_first_registration library k n

/-- **C88, use.** After `initIO`, a program finds the classes of the library, and no others, whatever plugins there are: a field of
a class from a plugin cannot be read. -/
theorem C88_only_the_library (W W' : World) (hW : Usual W) :
    ∃ s, initIO W new = some s ∧ ∀ k n, create W' k n s = some ((library.find? (fun c => Provides c k n)).map (·.2), s) := by
  obtain ⟨s, h1, h2, h3, -⟩ := C88_classes_lost W hW
  refine ⟨{ s with made := s.made.modify 0 (Factory.run library) }, by rw [initIO, h1]; rfl, ?_⟩
  intro k n
  rw [create, singleton_some W' { s with made := s.made.modify 0 (Factory.run library) } 0 h2]
  show some (_, _) = _
  rw [List.getElem?_modify, h3]
  show some (Factory.create k n (Factory.run library Factory.init), _) = _
  rw [library_run]

/-- After `initIO`, the four classes of fields and the three mappings of the library can be read, and nothing else. -/
theorem C88_library_types (W W' : World) (hW : Usual W) : ∃ s, initIO W new = some s ∧ ∀ k n,
    ∃ c s', create W' k n s = some (c, s') ∧ (c.isSome = true ↔ (k, n) ∈ [(Class.fieldIO, "DenseField".toList),
      (.fieldIO, "SparseField".toList), (.fieldIO, "MACField".toList), (.fieldIO, "MIPField".toList),
      (.mappingIO, "NullFieldMapping".toList), (.mappingIO, "MatrixFieldMapping".toList),
      (.mappingIO, "FrustumFieldMapping".toList)]) := by
  obtain ⟨s, h1, h2⟩ := C88_only_the_library W W' hW
  refine ⟨s, h1, fun k n => ⟨_, _, h2 k n, ?_⟩⟩
  rw [Option.isSome_map, List.find?_isSome]
  constructor
  · rintro ⟨c, hc, hp⟩
    simp only [library, List.mem_cons, List.not_mem_nil, or_false] at hc
    obtain ⟨hk, cls, type, hm, rfl⟩ := of_decide_eq_true hp
    rcases hc with rfl | rfl | rfl | rfl | rfl | rfl | rfl <;> (cases hk; cases hm; decide +kernel)
  · intro h
    simp only [List.mem_cons, Prod.mk.injEq, List.not_mem_nil, or_false] at h
    rcases h with ⟨rfl, rfl⟩ | ⟨rfl, rfl⟩ | ⟨rfl, rfl⟩ | ⟨rfl, rfl⟩ | ⟨rfl, rfl⟩ | ⟨rfl, rfl⟩ | ⟨rfl, rfl⟩ <;> decide +kernel

/-- Objects are made by the factory in use, whatever happened to others. -/
theorem C88_factory_in_use (W : World) (s : St) (i : Nat) (hi : s.inst = some i) (f : _root_.F3D.Factory.State) (hf : s.made[i]? = some f)
    (k : Class) (n : Str) : create W k n s = some (Factory.create k n f, s) := by
  rw [create, singleton_some W s i hi]
  simp [hf]

/-- **C88, a factory exists.** `loadPlugins` calls the registration function of every plugin whose name was not loaded before, once, in
the order of the search path, with the factory of the program; no factory is made or deleted. -/
theorem C88_factory_exists (W : World) (hW : Usual W) (s : St) (i : Nat) (hi : s.inst = some i) :
    ∃ s', loadPlugins W s = some s' ∧ s'.inst = some i ∧ s'.gone = s.gone ∧ s'.made.length = s.made.length ∧
      s'.called = s.called ++ (unloaded W s).map (fun p => (p.1, i)) ∧
      ∀ f, s.made[i]? = some f → s'.made[i]? = some (Factory.run (classes (unloaded W s)) f) := by
  refine ⟨_, load_some W (files_named W hW) s i hi, hi, rfl, ?_, rfl, ?_⟩
  · simp [withFactory]
  · intro f hf
    simp [withFactory, hf]

/-- **C88, the way out.** A program that asks for the factory before the search path is set, and then calls `loadPlugins`, finds the classes of
the plugins; the first plugin that provides a class decides. -/
theorem C88_loaded_later (W₀ W : World) (h₀ : W₀.path = none) (hW : Usual W) (W' : World) :
    ∃ s s', singleton W₀ new = some (0, s) ∧ loadPlugins W s = some s' ∧
      s'.called = (unloaded W new).map (fun p => (p.1, 0)) ∧
      ∀ k n, create W' k n s' = some (((classes (unloaded W new)).find? (fun c => Provides c k n)).map (·.2), s') := by
  have hf : files W₀ = [] := by unfold files dirs; rw [h₀]; rfl
  have hs : singleton W₀ new = some (0, { new with inst := some 0, made := [Factory.init] }) := by
    have := singleton_none W₀ (by rw [hf]; intro f h; simp at h) new rfl
    rw [this, unloaded, hf]
    rfl
  obtain ⟨s', h1, h2, h3, h4, h5, h6⟩ := C88_factory_exists W hW { new with inst := some 0, made := [Factory.init] } 0 rfl
  refine ⟨_, s', hs, h1, by rw [h5]; rfl, ?_⟩
  intro k n
  rw [create, singleton_some W' _ 0 h2]
  show some (_, _) = _
  rw [h6 _ rfl]
  show some (Factory.create k n (Factory.run (classes (unloaded W new)) Factory.init), _) = _
  rw [C59_first_registration]

/-- **C88, `loadPlugins` first.** If `loadPlugins` is the first call, only the classes of the first plugin are found. -/
theorem C88_first_plugin_only (W : World) (hW : Usual W) (p : Str × Plugin) (ps : List (Str × Plugin)) (hp : unloaded W new = p :: ps)
    (W' : World) :
    ∃ s, loadPlugins W new = some s ∧ s.called = callsBackwards 0 (p :: ps) ∧
      (∀ c ∈ s.called, c ≠ (p.1, 0) → c.2 ∈ s.gone) ∧
      ∀ k n, create W' k n s = some ((p.2.registers.find? (fun c => Provides c k n)).map (·.2), s) := by
  have h := load_none W (files_named W hW) new rfl
  rw [hp] at h
  refine ⟨_, h, rfl, ?_, ?_⟩
  · intro c hc hne
    have hb := mem_callsBackwards 0 (p :: ps) c hc
    have h0 : c.2 ≠ 0 := by
      intro h0
      obtain ⟨⟨q, i⟩, hx, hq⟩ := List.mem_map.1 (List.mem_reverse.1 hc)
      subst hq
      simp only at h0
      subst h0
      rw [show new.made.length = 0 from rfl, List.zipIdx_cons, List.mem_cons] at hx
      rcases hx with hx | hx
      · simp only [Prod.mk.injEq, and_true] at hx
        subst hx
        exact hne rfl
      · have := List.le_snd_of_mem_zipIdx hx
        simp at this
    simp only [withoutFactory, new, List.nil_append, List.length_nil, List.length_cons]
    simp only [List.length_cons] at hb
    rw [List.mem_reverse, List.mem_range'_1]
    omega
  · intro k n
    rw [create, singleton_some W' _ 0 (by simp [withoutFactory, new])]
    show some (Factory.create k n (Factory.run p.2.registers Factory.init), _) = _
    rw [C59_first_registration]

/-! ## Any number of calls -/

theorem plugins_names (W : World) (fs : List (Str × Str)) (hn : Named fs) :
    ((plugins W fs).map fun p => baseName p.1).Sublist (fs.map (·.2)) := by
  induction fs with
  | nil => exact List.Sublist.refl _
  | cons f fs ih =>
    have ih := ih fun g hg => hn g (by simp [hg])
    rw [plugins, List.filterMap_cons]
    cases pluginAt W f with
    | none => exact ih.cons _
    | some p =>
      show (baseName (pathOf f) :: _).Sublist _
      rw [baseName_path f (hn f (by simp)).1]
      exact ih.cons_cons _

/-- What holds between calls. -/
structure Sane (s : St) : Prop where
  names : s.loaded.Nodup
  called : ∀ c ∈ s.called, baseName c.1 ∈ s.loaded
  once : (s.called.map fun c => baseName c.1).Nodup
  live : ∀ i, s.inst = some i → i < s.made.length ∧ i ∉ s.gone
  gone : ∀ i ∈ s.gone, i < s.made.length

theorem sane_new : Sane new := ⟨by simp [new], by simp [new], by simp [new], by simp [new], by simp [new]⟩

/-- The names of the calls that are added. -/
theorem once_more (W : World) (hn : Named (files W)) (s : St) (h : Sane s) (more : List (Str × Nat))
    (hm : (more.map fun c => baseName c.1).Perm ((unloaded W s).map fun p => baseName p.1)) :
    (∀ c ∈ s.called ++ more, baseName c.1 ∈ s.loaded ++ (firsts s.loaded (files W)).map (·.2)) ∧
      ((s.called ++ more).map fun c => baseName c.1).Nodup := by
  have hsub := plugins_names W (firsts s.loaded (files W)) fun f hf => hn f (firsts_sub _ _ f hf).1
  have hnd := firsts_nodup (files W) s.loaded h.names
  rw [List.nodup_append] at hnd
  obtain ⟨-, h2, h3⟩ := hnd
  have hmem : ∀ c ∈ more, baseName c.1 ∈ (firsts s.loaded (files W)).map (·.2) := fun c hc =>
    hsub.subset (hm.subset (List.mem_map.2 ⟨c, hc, rfl⟩))
  constructor
  · intro c hc
    rcases List.mem_append.1 hc with hc | hc
    · exact List.mem_append_left _ (h.called c hc)
    · exact List.mem_append_right _ (hmem c hc)
  · rw [List.map_append, List.nodup_append]
    refine ⟨h.once, hm.nodup_iff.2 (h2.sublist hsub), ?_⟩
    intro a ha b hb
    obtain ⟨c, hc, rfl⟩ := List.mem_map.1 ha
    obtain ⟨d, hd, rfl⟩ := List.mem_map.1 hb
    exact h3 _ (h.called c hc) _ (hmem d hd)

theorem backwards_names (first : Nat) (ps : List (Str × Plugin)) :
    ((callsBackwards first ps).map fun c => baseName c.1).Perm (ps.map fun p => baseName p.1) := by
  unfold callsBackwards
  rw [List.map_reverse, List.map_map]
  refine (List.reverse_perm _).trans ?_
  have : (ps.zipIdx first).map ((fun c : Str × Nat => baseName c.1) ∘ fun x => (x.1.1, x.2)) =
      ((ps.zipIdx first).map (·.1)).map fun p => baseName p.1 := by rw [List.map_map]; rfl
  rw [this, List.zipIdx_map_fst]

theorem sane_factory (W : World) (hn : Named (files W)) (s : St) (h : Sane s) (i : Nat) :
    Sane (withFactory i s (firsts s.loaded (files W)) (unloaded W s)) := by
  obtain ⟨h1, h2⟩ := once_more W hn s h ((unloaded W s).map fun p => (p.1, i)) (by rw [List.map_map]; exact List.Perm.refl _)
  refine ⟨firsts_nodup _ _ h.names, h1, h2, ?_, ?_⟩
  · intro j hj
    have := h.live j hj
    simpa [withFactory] using this
  · intro j hj
    have := h.gone j hj
    simpa [withFactory] using this

theorem sane_none (W : World) (hn : Named (files W)) (s : St) (h : Sane s) :
    Sane (withoutFactory s (firsts s.loaded (files W)) (unloaded W s)) := by
  obtain ⟨h1, h2⟩ := once_more W hn s h (callsBackwards s.made.length (unloaded W s)) (backwards_names _ _)
  refine ⟨firsts_nodup _ _ h.names, h1, h2, ?_, ?_⟩
  · intro j hj
    simp only [withoutFactory] at hj ⊢
    generalize unloaded W s = ps at hj ⊢
    cases ps with
    | nil => simp at hj
    | cons p ps =>
      simp only [reduceCtorEq, if_false, Option.some.injEq] at hj
      subst hj
      refine ⟨by simp, ?_⟩
      intro hg
      rcases List.mem_append.1 hg with hg | hg
      · exact absurd (h.gone _ hg) (by omega)
      · rw [List.mem_reverse, List.mem_range'_1] at hg; omega
  · intro j hj
    simp only [withoutFactory] at hj ⊢
    rcases List.mem_append.1 hj with hj | hj
    · have := h.gone _ hj; rw [List.length_append]; omega
    · rw [List.mem_reverse, List.mem_range'_1] at hj
      rw [List.length_append, List.length_map]; omega

theorem sane_singleton (W : World) (hn : Named (files W)) (s : St) (h : Sane s) :
    ∃ i s', singleton W s = some (i, s') ∧ s'.inst = some i ∧ Sane s' := by
  cases hi : s.inst with
  | some i => exact ⟨i, s, singleton_some W s i hi, hi, h⟩
  | none =>
    have ha : Sane { s with made := s.made ++ [Factory.init] } :=
      ⟨h.names, h.called, h.once, fun i e => absurd (hi.symm.trans e) (by simp), fun i e => by
        have := h.gone i e; simp only [List.length_append]; omega⟩
    have hs := sane_none W hn _ ha
    refine ⟨_, _, singleton_none W hn s hi, rfl, hs.names, hs.called, hs.once, ?_, ?_⟩
    · intro j hj
      simp only [reset, Option.some.injEq] at hj
      subst hj
      refine ⟨by simp [reset, withoutFactory], ?_⟩
      intro hg
      simp only [reset] at hg
      rcases List.mem_append.1 hg with hg | hg
      · simp only [withoutFactory] at hg
        rcases List.mem_append.1 hg with hg | hg
        · exact absurd (h.gone _ hg) (by omega)
        · rw [List.mem_reverse, List.mem_range'_1] at hg
          simp only [List.length_append, List.length_cons] at hg; omega
      · rw [Option.mem_toList] at hg
        simp only [withoutFactory] at hg
        split at hg
        · simp at hg
        · simp at hg
    · intro j hj
      simp only [reset] at hj ⊢
      rcases List.mem_append.1 hj with hj | hj
      · exact hs.gone j hj
      · rw [Option.mem_toList] at hj
        exact (hs.live j hj).1

theorem sane_step (W : World) (hn : Named (files W)) (s : St) (h : Sane s) (c : Step) : ∃ s', step W s c = some s' ∧ Sane s' := by
  cases c with
  | singleton =>
    obtain ⟨i, s', h1, -, h2⟩ := sane_singleton W hn s h
    exact ⟨s', by simp [step, h1], h2⟩
  | loadPlugins =>
    cases hi : s.inst with
    | some i => exact ⟨_, load_some W hn s i hi, sane_factory W hn s h i⟩
    | none => exact ⟨_, load_none W hn s hi, sane_none W hn s h⟩
  | initIO =>
    obtain ⟨i, s', h1, h2, h3⟩ := sane_singleton W hn s h
    refine ⟨{ s' with made := s'.made.modify i (Factory.run library) }, by rw [step, initIO, h1]; rfl, h3.names, h3.called, h3.once, ?_, ?_⟩
    · intro j hj
      have := h3.live j hj
      simpa using this
    · intro j hj
      have := h3.gone j hj
      simpa using this

/-- **C88, once.** Whatever a program calls, however the search path, the directories and the files change between the calls: every call ends,
no registration function is called for two files of the same name, and the factory that the program uses is never one that was deleted. -/
theorem C88_at_most_once (cs : List (World × Step)) (h : ∀ c ∈ cs, Usual c.1) :
    ∃ s, run new cs = some s ∧ (s.called.map fun c => baseName c.1).Nodup ∧
      ∀ i, s.inst = some i → i < s.made.length ∧ i ∉ s.gone := by
  suffices H : ∀ (cs : List (World × Step)), (∀ c ∈ cs, Usual c.1) → ∀ s, Sane s → ∃ s', run s cs = some s' ∧ Sane s' by
    obtain ⟨s, h1, h2⟩ := H cs h new sane_new
    exact ⟨s, h1, h2.once, h2.live⟩
  intro cs
  induction cs with
  | nil => intro _ s hs; exact ⟨s, rfl, hs⟩
  | cons c cs ih =>
    intro hc s hs
    obtain ⟨s', h1, h2⟩ := sane_step c.1 (files_named c.1 (hc c (by simp))) s hs c.2
    obtain ⟨s'', h3, h4⟩ := ih (fun d hd => hc d (by simp [hd])) s' h2
    exact ⟨s'', by rw [run, h1]; exact h3, h4⟩

/-! ## Files that hide others -/

/-- A file after one of the same name does not come first. -/
theorem not_first (f g : Str × Str) (hfg : f.2 = g.2) (b c : List (Str × Str)) : ∀ (a : List (Str × Str)) (seen : List Str), ∀ x,
    x ∈ firsts seen (a ++ f :: b ++ g :: c) → x ∈ a ++ f :: b ++ c ∧ (x.2 = f.2 → x ∈ a ++ [f]) := by
  have hlate : ∀ (d : List (Str × Str)) (seen : List Str), f.2 ∈ seen → ∀ x ∈ firsts seen d, x ∈ d ∧ x.2 ≠ f.2 := by
    intro d seen hs x hx
    obtain ⟨h1, h2⟩ := firsts_sub d seen x hx
    exact ⟨h1, fun e => h2 (e ▸ hs)⟩
  have hdrop : ∀ (d : List (Str × Str)) (seen : List Str), f.2 ∈ seen → ∀ x ∈ firsts seen (d ++ g :: c), x ∈ d ++ c ∧ x.2 ≠ f.2 := by
    intro d seen hs x hx
    obtain ⟨h1, h2⟩ := hlate _ seen hs x hx
    refine ⟨?_, h2⟩
    rcases List.mem_append.1 h1 with h1 | h1
    · exact List.mem_append_left _ h1
    · rcases List.mem_cons.1 h1 with rfl | h1
      · exact absurd hfg.symm h2
      · exact List.mem_append_right _ h1
  intro a
  induction a with
  | nil =>
    intro seen x hx
    rw [List.nil_append, List.cons_append, firsts] at hx
    by_cases hf : f.2 ∈ seen
    · rw [if_pos hf] at hx
      obtain ⟨h1, h2⟩ := hdrop b seen hf x hx
      exact ⟨by simp at h1 ⊢; tauto, fun e => absurd e h2⟩
    · rw [if_neg hf] at hx
      rcases List.mem_cons.1 hx with rfl | hx
      · exact ⟨by simp, fun _ => by simp⟩
      · obtain ⟨h1, h2⟩ := hdrop b (seen ++ [f.2]) (by simp) x hx
        exact ⟨by simp at h1 ⊢; tauto, fun e => absurd e h2⟩
  | cons y a ih =>
    intro seen x hx
    simp only [List.cons_append] at hx
    rw [firsts] at hx
    by_cases hy : y.2 ∈ seen
    · rw [if_pos hy] at hx
      obtain ⟨h1, h2⟩ := ih seen x (by simpa using hx)
      exact ⟨by simp at h1 ⊢; tauto, fun e => by have := h2 e; simp at this ⊢; tauto⟩
    · rw [if_neg hy] at hx
      rcases List.mem_cons.1 hx with rfl | hx
      · exact ⟨by simp, fun _ => by simp⟩
      · obtain ⟨h1, h2⟩ := ih _ x (by simpa using hx)
        exact ⟨by simp at h1 ⊢; tauto, fun e => by have := h2 e; simp at this ⊢; tauto⟩

/-- The paths of calls in a world that does not change. -/
structure Steady (W : World) (s : St) : Prop where
  calls : ∀ c ∈ s.called, c.1 ∈ (unloaded W new).map (·.1)
  names : s.loaded = [] ∨ ∀ f ∈ files W, f.2 ∈ s.loaded

theorem steady_unloaded (W : World) (s : St) (h : Steady W s) : ∀ p ∈ unloaded W s, p.1 ∈ (unloaded W new).map (·.1) := by
  intro p hp
  rcases h.names with e | e
  · have : unloaded W s = unloaded W new := by unfold unloaded; rw [e]; rfl
    rw [this] at hp
    exact List.mem_map.2 ⟨p, hp, rfl⟩
  · have : unloaded W s = [] := by unfold unloaded; rw [firsts_seen _ _ e]; rfl
    rw [this] at hp
    simp at hp

theorem steady_load (W : World) (s s' : St) (h : Steady W s) (hl : s'.loaded = s.loaded ++ (firsts s.loaded (files W)).map (·.2))
    (hc : ∀ c ∈ s'.called, c ∈ s.called ∨ ∃ p ∈ unloaded W s, p.1 = c.1) : Steady W s' := by
  refine ⟨?_, .inr ?_⟩
  · intro c hcc
    rcases hc c hcc with hcc | ⟨p, hp, e⟩
    · exact h.calls c hcc
    · rw [← e]; exact steady_unloaded W s h p hp
  · intro f hf
    rw [hl]
    exact firsts_cover (files W) s.loaded f hf

theorem backwards_mem (first : Nat) (ps : List (Str × Plugin)) (c : Str × Nat) (h : c ∈ callsBackwards first ps) : ∃ p ∈ ps, p.1 = c.1 := by
  obtain ⟨⟨p, i⟩, hx, rfl⟩ := List.mem_map.1 (List.mem_reverse.1 h)
  exact ⟨p, List.fst_mem_of_mem_zipIdx hx, rfl⟩

theorem steady_singleton (W : World) (hn : Named (files W)) (s : St) (h : Steady W s) :
    ∃ i s', singleton W s = some (i, s') ∧ Steady W s' := by
  cases hi : s.inst with
  | some i => exact ⟨i, s, singleton_some W s i hi, h⟩
  | none =>
    refine ⟨_, _, singleton_none W hn s hi, steady_load W s _ h rfl ?_⟩
    intro c hc
    rcases List.mem_append.1 (show c ∈ s.called ++ callsBackwards _ (unloaded W s) from hc) with hc | hc
    · exact .inl hc
    · exact .inr (backwards_mem _ _ c hc)

theorem steady_step (W : World) (hn : Named (files W)) (s : St) (h : Steady W s) (c : Step) : ∃ s', step W s c = some s' ∧ Steady W s' := by
  cases c with
  | singleton =>
    obtain ⟨i, s', h1, h2⟩ := steady_singleton W hn s h
    exact ⟨s', by simp [step, h1], h2⟩
  | loadPlugins =>
    cases hi : s.inst with
    | some i =>
      refine ⟨_, load_some W hn s i hi, steady_load W s _ h rfl ?_⟩
      intro c hc
      rcases List.mem_append.1 (show c ∈ s.called ++ (unloaded W s).map (fun p => (p.1, i)) from hc) with hc | hc
      · exact .inl hc
      · obtain ⟨p, hp, rfl⟩ := List.mem_map.1 hc
        exact .inr ⟨p, hp, rfl⟩
    | none =>
      refine ⟨_, load_none W hn s hi, steady_load W s _ h rfl ?_⟩
      intro c hc
      rcases List.mem_append.1 (show c ∈ s.called ++ callsBackwards _ (unloaded W s) from hc) with hc | hc
      · exact .inl hc
      · exact .inr (backwards_mem _ _ c hc)
  | initIO =>
    obtain ⟨i, s', h1, h3⟩ := steady_singleton W hn s h
    exact ⟨{ s' with made := s'.made.modify i (Factory.run library) }, by rw [step, initIO, h1]; rfl, h3.calls, h3.names⟩

/-- **C88, hidden.** A file that comes after another one of the same name in the search path is never used, not even when the first one cannot
be opened or has no registration function. -/
theorem C88_hidden (W : World) (hW : Usual W) (a b c : List (Str × Str)) (f g : Str × Str) (hfiles : files W = a ++ f :: b ++ g :: c)
    (hname : f.2 = g.2) (hg : g ∉ a ++ [f]) (steps : List Step) :
    ∃ s, run new (steps.map fun x => (W, x)) = some s ∧ ∀ call ∈ s.called, call.1 ≠ pathOf g := by
  have hn := files_named W hW
  have hgf : g ∈ files W := by rw [hfiles]; simp
  suffices H : ∀ (steps : List Step) (s : St), Steady W s → ∃ s', run s (steps.map fun x => (W, x)) = some s' ∧ Steady W s' by
    obtain ⟨s, h1, h2⟩ := H steps new ⟨by simp [new], .inl rfl⟩
    refine ⟨s, h1, ?_⟩
    intro call hc he
    obtain ⟨p, hp, hpe⟩ := List.mem_map.1 (h2.calls call hc)
    obtain ⟨x, hx, hxp⟩ := List.mem_filterMap.1 hp
    have hxpath : pathOf x = pathOf g := by
      cases hq : pluginAt W x with
      | none => rw [hq] at hxp; simp at hxp
      | some q =>
        rw [hq] at hxp
        simp only [Option.map_some, Option.some.injEq] at hxp
        rw [← he, ← hpe, ← hxp]
    rw [show (new).loaded = [] from rfl, hfiles] at hx
    obtain ⟨h3, h4⟩ := not_first f g hname b c a [] x hx
    have hxf : x ∈ files W := by rw [hfiles]; simp at h3 ⊢; tauto
    have hx2 : x.2 = g.2 := by
      rw [← baseName_path x (hn x hxf).1, hxpath, baseName_path g (hn g hgf).1]
    have hx1 : x.1 = g.1 := by
      have := hxpath
      unfold pathOf at this
      rw [hx2] at this
      exact List.append_cancel_right (List.append_cancel_right this)
    have : x = g := Prod.ext hx1 hx2
    subst this
    exact hg (h4 hname.symm)
  intro steps
  induction steps with
  | nil => intro s hs; exact ⟨s, rfl, hs⟩
  | cons x xs ih =>
    intro s hs
    obtain ⟨s', h1, h2⟩ := steady_step W hn s hs x
    obtain ⟨s'', h3, h4⟩ := ih s' h2
    exact ⟨s'', by rw [List.map_cons, run, h1]; exact h3, h4⟩

/-! ## A search path with two directories -/

section Cases

/-- Two directories: `/p` holds a file `x.so` that cannot be opened, and the plugins `y.so` and `z.so`; `/q` holds another `x.so`, which is a plugin. -/
def twoDirs : World where
  path := some "/p:/q".toList
  dir d := if d = "/p".toList then some [".".toList, "x.so".toList, "readme".toList, "y.so".toList, "z.so".toList]
    else if d = "/q".toList then some ["x.so".toList] else none
  dl p := if p = "/p/x.so".toList then none
    else if p = "/p/y.so".toList then some (some ⟨[(.fieldIO, ⟨7, some ("YField".toList, [])⟩)]⟩)
    else if p = "/p/z.so".toList then some (some ⟨[(.fieldIO, ⟨8, some ("ZField".toList, [])⟩)]⟩)
    else if p = "/q/x.so".toList then some (some ⟨[(.fieldIO, ⟨9, some ("XField".toList, [])⟩)]⟩)
    else none

theorem twoDirs_usual : Usual twoDirs := by
  intro d names h n hn
  unfold twoDirs at h
  simp only at h
  split at h
  · simp only [Option.some.injEq] at h
    subst h
    revert n
    decide
  · split at h
    · simp only [Option.some.injEq] at h
      subst h
      revert n
      decide
    · simp at h

theorem twoDirs_files : files twoDirs = [("/p".toList, "x.so".toList), ("/p".toList, "y.so".toList), ("/p".toList, "z.so".toList),
    ("/q".toList, "x.so".toList)] := by decide

/-- The registration functions of `z.so` and of `y.so` are called, but the classes are not found. -/
example : ∃ s, initIO twoDirs new = some s ∧ s.called = [("/p/z.so".toList, 2), ("/p/y.so".toList, 1)] ∧ s.gone = [2, 1] ∧
    create twoDirs .fieldIO "YField".toList s = some (none, s) ∧
    (create twoDirs .fieldIO "DenseField".toList s).map (·.1) = some (some ⟨0, some ("DenseField".toList, [])⟩) := by
  obtain ⟨s, h1, h2⟩ := C88_only_the_library twoDirs twoDirs twoDirs_usual
  refine ⟨s, h1, ?_, ?_, ?_, ?_⟩
  · have : (initIO twoDirs new).map (·.called) = some [("/p/z.so".toList, 2), ("/p/y.so".toList, 1)] := by decide +kernel
    rw [h1] at this
    simpa using this
  · have : (initIO twoDirs new).map (·.gone) = some [2, 1] := by decide +kernel
    rw [h1] at this
    simpa using this
  · rw [h2]
    have : library.find? (fun c => Provides c .fieldIO "YField".toList) = none := by decide
    rw [this]; rfl
  · rw [h2]
    have : library.find? (fun c => Provides c .fieldIO "DenseField".toList) =
      some (.fieldIO, ⟨0, some ("DenseField".toList, [])⟩) := by decide
    rw [this]; rfl

/-- The plugin `/q/x.so` is hidden by `/p/x.so`. -/
example (steps : List Step) : ∃ s, run new (steps.map fun x => (twoDirs, x)) = some s ∧
    ∀ call ∈ s.called, call.1 ≠ "/q/x.so".toList :=
  C88_hidden twoDirs twoDirs_usual [] [("/p".toList, "y.so".toList), ("/p".toList, "z.so".toList)] [] ("/p".toList, "x.so".toList)
    ("/q".toList, "x.so".toList) twoDirs_files rfl (by decide) steps

/-- Loaded later, they are found. -/
example : ∃ s s', singleton ⟨none, twoDirs.dir, twoDirs.dl⟩ new = some (0, s) ∧ loadPlugins twoDirs s = some s' ∧
    s'.called = [("/p/y.so".toList, 0), ("/p/z.so".toList, 0)] ∧
    create twoDirs .fieldIO "ZField".toList s' = some (some ⟨8, some ("ZField".toList, [])⟩, s') := by
  obtain ⟨s, s', h1, h2, h3, h4⟩ := C88_loaded_later ⟨none, twoDirs.dir, twoDirs.dl⟩ twoDirs rfl twoDirs_usual twoDirs
  have hw : unloaded twoDirs new = [("/p/y.so".toList, ⟨[(.fieldIO, ⟨7, some ("YField".toList, [])⟩)]⟩),
    ("/p/z.so".toList, ⟨[(.fieldIO, ⟨8, some ("ZField".toList, [])⟩)]⟩)] := by decide
  rw [hw] at h3 h4
  refine ⟨s, s', h1, h2, h3, ?_⟩
  rw [h4]
  have : (classes [("/p/y.so".toList, (⟨[(.fieldIO, ⟨7, some ("YField".toList, [])⟩)]⟩ : Plugin)),
    ("/p/z.so".toList, ⟨[(.fieldIO, ⟨8, some ("ZField".toList, [])⟩)]⟩)]).find? (fun c => Provides c .fieldIO "ZField".toList) =
      some (.fieldIO, ⟨8, some ("ZField".toList, [])⟩) := by decide
  rw [this]; rfl

/-- `loadPlugins` first: only the classes of `y.so`. -/
example : ∃ s, loadPlugins twoDirs new = some s ∧ s.called = [("/p/z.so".toList, 1), ("/p/y.so".toList, 0)] ∧
    create twoDirs .fieldIO "ZField".toList s = some (none, s) := by
  obtain ⟨s, h1, h2, -, h4⟩ := C88_first_plugin_only twoDirs twoDirs_usual
    ("/p/y.so".toList, ⟨[(.fieldIO, ⟨7, some ("YField".toList, [])⟩)]⟩)
    [("/p/z.so".toList, ⟨[(.fieldIO, ⟨8, some ("ZField".toList, [])⟩)]⟩)] (by decide) twoDirs
  refine ⟨s, h1, h2, ?_⟩
  rw [h4]
  rfl

example : Shared "x.so".toList ∧ Shared "so".toList ∧ Shared "x.so.".toList ∧ ¬ Shared "xso".toList := by
  refine ⟨?_, ?_, ?_, ?_⟩
  · rw [← C88_names]; decide
  · rw [← C88_names]; decide
  · rw [← C88_names]; decide
  · rw [← C88_names]; decide

end Cases
end F3D.Props
