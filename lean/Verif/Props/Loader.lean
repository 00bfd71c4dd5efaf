import Verif.Model.Loader
import Verif.Spec.Table
import Verif.Lemmas.Dict
import Verif.Lemmas.Table
import Verif.Props.Builtins

/-! Properties C29-C31, C63, C64: loaders and built-in symbols. -/

namespace Verif
open Py Spec

/-! ### C29 -/

/-- Invariant of a loader: the cache holds exactly the successful reads, and no location is read
again after a successful read. -/
def LoaderInv {W L M E} [DecidableEq L] (st : LoaderState W L M E) : Prop :=
  (∀ loc m, st.cache.get? loc = some m ↔ (loc, Except.ok m) ∈ st.reads) ∧
  st.reads.Pairwise (fun a b => a.1 = b.1 → ∀ m, a.2 ≠ .ok m)

theorem loader_load_inv {W P R L M E} [DecidableEq L] (impl : LoaderImpl W P R L M E)
    (st : LoaderState W L M E) (h : LoaderInv st) (p : P) (r : R) :
    LoaderInv (Loader.load impl st p r).2 ∧
    (∀ loc m, (Loader.load impl st p r).1 = (some loc, .ok m) →
      (loc, .ok m) ∈ (Loader.load impl st p r).2.reads) ∧
    (∀ x ∈ st.reads, x ∈ (Loader.load impl st p r).2.reads) := by
  unfold Loader.load
  obtain ⟨h1, h2⟩ := h
  split
  · exact ⟨⟨h1, h2⟩, by simp, fun x hx => hx⟩
  · exact ⟨⟨h1, h2⟩, by simp, fun x hx => hx⟩
  · rename_i loc w hf
    split
    · rename_i m hc
      refine ⟨⟨h1, h2⟩, ?_, fun x hx => hx⟩
      intro loc' m' e
      simp only [Prod.mk.injEq, Option.some.injEq, Except.ok.injEq] at e
      rw [← e.1, ← e.2]
      exact (h1 loc m).1 hc
    · rename_i hc
      have hnone : ∀ x ∈ st.reads, x.1 = loc → ∀ m, x.2 ≠ .ok m := by
        intro x hx e m hm
        have := (h1 loc m).2 (by rw [← e, ← hm]; exact hx)
        rw [hc] at this; simp at this
      split
      · rename_i e w' hr
        refine ⟨⟨?_, ?_⟩, by simp, fun x hx => List.mem_append_left _ hx⟩
        · intro l m
          rw [h1 l m]; simp
        · rw [List.pairwise_append]
          refine ⟨h2, by simp, ?_⟩
          intro a ha b hb
          simp only [List.mem_singleton] at hb
          subst hb
          exact hnone a ha
      · rename_i m w' hr
        refine ⟨⟨?_, ?_⟩, ?_, fun x hx => List.mem_append_left _ hx⟩
        · intro l m'
          rw [Dict.get?_set]
          by_cases e : loc = l
          · subst e
            rw [if_pos rfl]
            simp only [Option.some.injEq, List.mem_append, List.mem_singleton, Prod.mk.injEq,
              true_and, Except.ok.injEq]
            constructor
            · intro e; exact Or.inr e.symm
            · rintro (hm | e)
              · exact absurd rfl (hnone _ hm rfl m')
              · exact e.symm
          · rw [if_neg e, h1 l m']
            simp [Ne.symm e]
        · rw [List.pairwise_append]
          refine ⟨h2, by simp, ?_⟩
          intro a ha b hb
          simp only [List.mem_singleton] at hb
          subst hb
          exact hnone a ha
        · intro l m' e
          simp only [Prod.mk.injEq, Option.some.injEq, Except.ok.injEq] at e
          rw [← e.1, ← e.2]; simp

theorem loader_run_inv {W P R L M E} [DecidableEq L] (impl : LoaderImpl W P R L M E)
    (reqs : List (P × R)) (st : LoaderState W L M E) (h : LoaderInv st) :
    LoaderInv (Loader.run impl st reqs).2 ∧
    (∀ loc m, (some loc, .ok m) ∈ (Loader.run impl st reqs).1 →
      (loc, .ok m) ∈ (Loader.run impl st reqs).2.reads) ∧
    (∀ x ∈ st.reads, x ∈ (Loader.run impl st reqs).2.reads) := by
  induction reqs generalizing st with
  | nil => exact ⟨h, by simp [Loader.run], fun x hx => hx⟩
  | cons q reqs ih =>
    obtain ⟨p, r⟩ := q
    obtain ⟨h1, h2, h3⟩ := loader_load_inv impl st h p r
    obtain ⟨i1, i2, i3⟩ := ih _ h1
    refine ⟨i1, ?_, fun x hx => i3 x (h3 x hx)⟩
    intro loc m hm
    simp only [Loader.run, List.mem_cons] at hm
    rcases hm with e | hm
    · exact i3 _ (h2 loc m e.symm)
    · exact i2 loc m hm

/-- C29. Over any history of requests to a fresh loader, once a location was read successfully it is
not read again, and every request that locates it returns the module of that read. -/
theorem C29_read_once {W P R L M E} [DecidableEq L] (impl : LoaderImpl W P R L M E) (w : W)
    (reqs : List (P × R)) :
    let res := Loader.run impl { cache := [], world := w, reads := [] } reqs
    res.2.reads.Pairwise (fun a b => a.1 = b.1 → ∀ m, a.2 ≠ .ok m) ∧
    ∀ loc m, (some loc, .ok m) ∈ res.1 → (loc, .ok m) ∈ res.2.reads := by
  have h0 : LoaderInv ({ cache := [], world := w, reads := [] } : LoaderState W L M E) :=
    ⟨by intro loc m; simp [Dict.get?], by simp⟩
  obtain ⟨⟨_, h2⟩, h3, _⟩ := loader_run_inv impl reqs _ h0
  exact ⟨h2, h3⟩

/-- C29. All requests locating the same module return the same module object. -/
theorem C29_same_module {W P R L M E} [DecidableEq L] (impl : LoaderImpl W P R L M E) (w : W)
    (reqs : List (P × R)) (loc : L) (m m' : Option M)
    (h : (some loc, .ok m) ∈ (Loader.run impl { cache := [], world := w, reads := [] } reqs).1)
    (h' : (some loc, .ok m') ∈ (Loader.run impl { cache := [], world := w, reads := [] } reqs).1) :
    m = m' := by
  have h0 : LoaderInv ({ cache := [], world := w, reads := [] } : LoaderState W L M E) :=
    ⟨by intro loc m; simp [Dict.get?], by simp⟩
  obtain ⟨⟨h1, _⟩, h3, _⟩ := loader_run_inv impl reqs _ h0
  have a := (h1 loc m).2 (h3 loc m h)
  have b := (h1 loc m').2 (h3 loc m' h')
  rw [a] at b
  simpa using b

/-- Three requests, two of the same location through different paths: two reads. -/
example : (Loader.run (E := Empty)
    { find := fun (p : Nat) (_ : Unit) (w : Nat) => (.ok (if p = 9 then none else some (p % 2)), w)
      read := fun loc w => (.ok (some (100 * w + loc)), w + 1) }
    { cache := [], world := 0, reads := [] } [(1, ()), (2, ()), (9, ()), (3, ())]).1 =
    [(some 1, .ok (some 1)), (some 0, .ok (some 100)), (none, .ok none), (some 1, .ok (some 1))] := by
  rfl

/-! ### C30 -/

/-- All the given loaders, tried in turn, answer `None`; `w'` is the world after that. -/
inductive AllNone {W M E : Type} : List (W → Except E (Option M) × W) → W → W → Prop
  | nil {w : W} : AllNone [] w w
  | cons {load : W → Except E (Option M) × W} {loads : List (W → Except E (Option M) × W)}
      {w w' w'' : W} : load w = (.ok none, w') → AllNone loads w' w'' → AllNone (load :: loads) w w''

/-- C30. The module is that of the first loader that finds it. Nothing happens after that: later
loaders are not consulted. -/
theorem C30_first_loader {W M E : Type} (loaders : List (W → Except E (Option M) × W)) (w w' : W)
    (m : M) :
    importModule loaders w = (.ok m, w') ↔
      ∃ pre load post w1, loaders = pre ++ load :: post ∧ AllNone pre w w1 ∧
        load w1 = (.ok (some m), w') := by
  induction loaders generalizing w with
  | nil => simp [importModule]
  | cons ld ls ih =>
    simp only [importModule]
    constructor
    · intro h
      split at h
      · simp at h
      · rename_i m' w1 hl
        simp only [Prod.mk.injEq, Except.ok.injEq] at h
        exact ⟨[], ld, ls, w, rfl, .nil, by rw [hl, h.1, h.2]⟩
      · rename_i w1 hl
        obtain ⟨pre, load, post, w2, e, h1, h2⟩ := (ih w1).1 h
        exact ⟨ld :: pre, load, post, w2, by rw [e]; rfl, .cons hl h1, h2⟩
    · rintro ⟨pre, load, post, w1, e, h1, h2⟩
      cases h1 with
      | nil =>
        simp only [List.nil_append, List.cons.injEq] at e
        rw [e.1, h2]
      | cons hl h1 =>
        simp only [List.cons_append, List.cons.injEq] at e
        rw [e.1, hl]
        exact (ih _).2 ⟨_, load, post, w1, e.2, h1, h2⟩

/-- C30. `ModuleNotFoundEx` is raised exactly when all the loaders answer `None`. -/
theorem C30_not_found {W M E : Type} (loaders : List (W → Except E (Option M) × W)) (w w' : W) :
    importModule loaders w = (.error .notFound, w') ↔ AllNone loaders w w' := by
  induction loaders generalizing w with
  | nil =>
    simp only [importModule, Prod.mk.injEq, true_and]
    constructor
    · rintro rfl; exact .nil
    · intro h; cases h; rfl
  | cons ld ls ih =>
    simp only [importModule]
    constructor
    · intro h
      split at h
      · simp at h
      · simp at h
      · rename_i w1 hl
        exact .cons hl ((ih w1).1 h)
    · intro h
      cases h with
      | cons hl h1 => rw [hl]; exact (ih _).2 h1

/-- C30. An exception of a loader passes through; it comes from the first loader that does not answer
`None`. -/
theorem C30_exception {W M E : Type} (loaders : List (W → Except E (Option M) × W)) (w w' : W)
    (x : E) :
    importModule loaders w = (.error (.loader x), w') ↔
      ∃ pre load post w1, loaders = pre ++ load :: post ∧ AllNone pre w w1 ∧
        load w1 = (.error x, w') := by
  induction loaders generalizing w with
  | nil => simp [importModule]
  | cons ld ls ih =>
    simp only [importModule]
    constructor
    · intro h
      split at h
      · rename_i m' w1 hl
        simp only [Prod.mk.injEq, Except.error.injEq, ImportErr.loader.injEq] at h
        exact ⟨[], ld, ls, w, rfl, .nil, by rw [hl, h.1, h.2]⟩
      · simp at h
      · rename_i w1 hl
        obtain ⟨pre, load, post, w2, e, h1, h2⟩ := (ih w1).1 h
        exact ⟨ld :: pre, load, post, w2, by rw [e]; rfl, .cons hl h1, h2⟩
    · rintro ⟨pre, load, post, w1, e, h1, h2⟩
      cases h1 with
      | nil =>
        simp only [List.nil_append, List.cons.injEq] at e
        rw [e.1, h2]
      | cons hl h1 =>
        simp only [List.cons_append, List.cons.injEq] at e
        rw [e.1, hl]
        exact (ih _).2 ⟨_, load, post, w1, e.2, h1, h2⟩

example : importModule (E := Unit)
    [fun w => (.ok none, w + 1), fun w => (.ok (some "m"), w + 10), fun w => (.ok (some "x"), w + 100)] 0 =
    (.ok "m", 11) := by rfl

/-! ### C31 -/

set_option linter.unusedSectionVars false

variable {K V E : Type} [DecidableEq K]

theorem update_latest (d : Dict K V) (ps : List (K × V)) (k : K) :
    (d.update ps).get? k = (match latest ps k with | some v => some v | none => d.get? k) := by
  induction ps generalizing d with
  | nil => rfl
  | cons p ps ih =>
    obtain ⟨a, v⟩ := p
    simp only [Dict.update, ih, latest, Dict.get?_set]
    cases latest ps k with
    | some w => rfl
    | none =>
      dsimp only
      by_cases h : a = k
      · simp [h]
      · simp [h]

theorem getD_modify (h : DictHeap K V) (i j : Nat) (f : Dict K V → Dict K V) (hi : i < h.length) :
    (h.modify i f).getD j [] = if i = j then f (h.getD j []) else h.getD j [] := by
  rw [List.getD_eq_getElem?_getD, List.getElem?_modify, List.getD_eq_getElem?_getD]
  by_cases e : i = j
  · subst e
    rw [if_pos rfl, List.getElem?_eq_getElem hi]
    simp
  · rw [if_neg e]
    cases h[j]? <;> simp [e]

/-- The object `_builtins` once it is filled. -/
def BuiltinsAre (st : RuntimeState K V) (base : Dict K V) : Prop :=
  ∃ ref, st.builtins = some ref ∧ ref < st.heap.length ∧ st.heap.getD ref [] = base

theorem fillBuiltins_ok (ref : Nat) (mods : List (List (K × V))) (h : DictHeap K V)
    (hr : ref < h.length) :
    ∃ h', fillBuiltins (E := E) ref (mods.map .ok) h = (.ok (), h') ∧ h'.length = h.length ∧
      h'.getD ref [] = (h.getD ref []).update mods.flatten := by
  induction mods generalizing h with
  | nil => exact ⟨h, rfl, rfl, rfl⟩
  | cons m mods ih =>
    obtain ⟨h', g1, g2, g3⟩ := ih (h.modify ref (fun d => d.update m)) (by simpa using hr)
    refine ⟨h', g1, by simpa using g2, ?_⟩
    rw [g3, getD_modify _ _ _ _ hr, if_pos rfl, List.flatten_cons, Dict.update_append]

theorem getD_append_left (h : DictHeap K V) (d : Dict K V) (i : Nat) (hi : i < h.length) :
    (h ++ [d]).getD i [] = h.getD i [] := by
  rw [List.getD_eq_getElem?_getD, List.getD_eq_getElem?_getD, List.getElem?_append_left hi]

theorem getD_append_right (h : DictHeap K V) (d : Dict K V) : (h ++ [d]).getD h.length [] = d := by
  rw [List.getD_eq_getElem?_getD]; simp

theorem translateWith_filled (st : RuntimeState K V) (base : Dict K V) (hb : BuiltinsAre st base)
    (j : Job K V E) :
    (translateWith j.mods st j.file j.package j.mutate).1 =
      .ok ((base.set j.file.1 j.file.2).set j.package.1 j.package.2) ∧
    BuiltinsAre (translateWith j.mods st j.file j.package j.mutate).2 base := by
  obtain ⟨ref, h1, h2, h3⟩ := hb
  unfold translateWith importBuiltins
  simp only [h1]
  constructor
  · rw [getD_modify _ _ _ _ (by simp), if_pos rfl, getD_append_right, h3]
  · refine ⟨ref, rfl, by simp; omega, ?_⟩
    dsimp only
    rw [getD_modify _ _ _ _ (by simp), if_neg (by omega), getD_modify _ _ _ _ (by simp),
      if_neg (by omega), getD_append_left _ _ _ h2, h3]

theorem translateRun_filled (st : RuntimeState K V) (base : Dict K V) (hb : BuiltinsAre st base)
    (js : List (Job K V E)) :
    (translateRun st js).1 =
      js.map (fun j => .ok ((base.set j.file.1 j.file.2).set j.package.1 j.package.2)) := by
  induction js generalizing st with
  | nil => rfl
  | cons j js ih =>
    obtain ⟨h1, h2⟩ := translateWith_filled st base hb j
    simp only [translateRun, List.map_cons, h1, ih _ h2]

/-- C31. In any history of translations, each one starts with the same built-in symbols (plus its own
two entries `__file__`, `__package__`), whatever the previous ones did to the dictionaries they were
given; provided that the built-in modules can be imported when they are first needed. -/
theorem C31_isolated (heap : DictHeap K V) (mods : List (List (K × V))) (j : Job K V E)
    (js : List (Job K V E)) (hj : j.mods = mods.map .ok) :
    (translateRun { heap := heap, builtins := none } (j :: js)).1 =
      (j :: js).map (fun j => .ok
        (((Dict.update [] mods.flatten).set j.file.1 j.file.2).set j.package.1 j.package.2)) := by
  have hlen : heap.length < (heap ++ [([] : Dict K V)]).length := by simp
  obtain ⟨h', g1, g2, g3⟩ := fillBuiltins_ok (E := E) heap.length mods (heap ++ [[]]) hlen
  rw [getD_append_right] at g3
  have hstep : (translateWith j.mods { heap := heap, builtins := none } j.file j.package j.mutate).1 =
      .ok (((Dict.update [] mods.flatten).set j.file.1 j.file.2).set j.package.1 j.package.2) ∧
    BuiltinsAre (translateWith j.mods { heap := heap, builtins := none } j.file j.package j.mutate).2
      (Dict.update [] mods.flatten) := by
    unfold translateWith importBuiltins
    simp only [hj, g1]
    have hl' : heap.length < h'.length := by rw [g2]; exact hlen
    constructor
    · rw [getD_modify _ _ _ _ (by simp), if_pos rfl, getD_append_right, g3]
    · refine ⟨heap.length, rfl, by simp; omega, ?_⟩
      dsimp only
      rw [getD_modify _ _ _ _ (by simp), if_neg (by omega), getD_modify _ _ _ _ (by simp),
        if_neg (by omega), getD_append_left _ _ _ hl', g3]
  simp only [translateRun, List.map_cons]
  rw [hstep.1, translateRun_filled _ _ hstep.2]

/-- C31. In the built-in symbols later modules override earlier ones: the value of a name is the
latest one in the concatenation of the modules' symbol tables. -/
theorem C31_override (mods : List (List (K × V))) (k : K) :
    (Dict.update [] mods.flatten).get? k = latest mods.flatten k := by
  rw [update_latest]
  cases latest mods.flatten k <;> rfl

/-- C31, why the proviso: when the import of the second built-in module fails at the first
translation, later translations start with the symbols of the first module only, although the second
module could be imported by then. -/
theorem C31_failed_import_witness :
    (translateRun (E := String) { heap := [], builtins := none }
      [{ mods := [.ok [("a", 1)], .error "x"], file := ("f", 0), package := ("p", 0), mutate := id },
       { mods := [.ok [("a", 1)], .ok [("b", 2)]], file := ("f", 0), package := ("p", 0),
         mutate := id }]).1 =
      [.error "x", .ok [("a", 1), ("f", 0), ("p", 0)]] := by rfl

example : (translateRun (E := String) { heap := [], builtins := none }
      [{ mods := [.ok [("a", 1)], .ok [("b", 2), ("a", 3)]], file := ("f", 5), package := ("p", 6),
         mutate := fun d => d.set "a" 77 },
       { mods := [], file := ("f", 7), package := ("p", 8), mutate := id }]).1 =
      [.ok [("a", 3), ("b", 2), ("f", 5), ("p", 6)], .ok [("a", 3), ("b", 2), ("f", 7), ("p", 8)]] := by
  rfl

/-! ### C63 -/

/-- File path of a dotted import path under a root folder. -/
def underFolder {E} (env : HyEnv E) (root path : Str) : Str :=
  (if root.getLast? = some env.sep then root.dropLast else root) ++ [env.sep] ++
    join [env.sep] (split '.' path) ++ env.ext

/-- Candidate locations of an absolute import path, in the documented order (docstring of `HyLoader`):
the answer of `resolve`, the folder of the Python package, the current folder, the referrer's folder.
`pkg` is the folder of the package and the name within it, if the path has a package. -/
def candidates {E} (env : HyEnv E) (pkg : Option (Str × Str)) (path : Str) (ref : Referrer) : List Str :=
  (match env.resolve with
    | some f => (f path).toList.filter (· ≠ [])
    | none => []) ++
  (pkg.map (fun p => p.1 ++ [env.sep] ++ p.2 ++ env.ext)).toList ++
  [underFolder env env.cwd path] ++
  (ref.root.map (fun root => underFolder env root path)).toList

theorem rsplitHead_last {sep : Char} {a b : Str} (h : sep ∉ b) : rsplitHead sep (a ++ sep :: b) = a := by
  rcases rsplitHead_spec sep (a ++ sep :: b) with ⟨h1, _⟩ | ⟨b', h1, h2⟩
  · simp at h1
  · generalize rsplitHead sep (a ++ sep :: b) = x at h1
    have e := congrArg (split sep) h1
    rw [split_append, split_append, split_cons_sep, split_cons_sep, split_of_not_mem h, split_of_not_mem h2] at e
    simp only [List.headD_cons, List.append_nil, List.tail_cons] at e
    have e' := List.append_inj_right' e rfl
    simp only [List.cons.injEq, and_true] at e'
    obtain ⟨-, rfl⟩ := e'
    exact (List.append_cancel_right h1).symm

theorem rsplitTail_last {sep : Char} {a b : Str} (h : sep ∉ b) : rsplitTail sep (a ++ sep :: b) = b := by
  unfold rsplitTail
  rw [rsplitHead_last h]
  simp

theorem joinPath_one_dot (root path : Str) (sep : Char) (ext : Str) (h : path.head? ≠ some '.') :
    joinPath (some root) ('.' :: path) sep (some ext) =
      .ok (some ((if root.getLast? = some sep then root.dropLast else root) ++ [sep] ++
        join [sep] (split '.' path) ++ ext)) := by
  unfold joinPath
  dsimp only
  rw [if_neg (by simp)]
  simp only [List.drop_succ_cons, List.drop_zero]
  have hl : ∀ b, joinLoop sep b path = .ok (b, path) := by
    intro b
    cases path with
    | nil => rfl
    | cons c p =>
      have : c ≠ '.' := by simpa using h
      simp [joinLoop, this]
  rw [hl]
  dsimp only
  rw [replace_dots]
  rfl

theorem makeAbsolute_one_dot (path : Str) (ref : Referrer) (h : path.head? ≠ some '.') :
    ∃ py, makeAbsolute ('.' :: path) ref = .ok py := by
  unfold makeAbsolute
  rw [if_neg (by simp)]
  cases ref.package with
  | none => exact ⟨none, rfl⟩
  | some pk =>
    unfold joinPath
    dsimp only
    rw [if_neg (by simp)]
    simp only [List.drop_succ_cons, List.drop_zero]
    have hl : ∀ b, joinLoop '.' b path = .ok (b, path) := by
      intro b
      cases path with
      | nil => rfl
      | cons c p =>
        have : c ≠ '.' := by simpa using h
        simp [joinLoop, this]
    rw [hl]
    exact ⟨_, rfl⟩

theorem hyStep4_spec {E} (env : HyEnv E) (path : Str) (ref : Referrer) (h : path.head? ≠ some '.') :
    (∀ root, ref.root = some root → env.exist (underFolder env root path) = true →
      ∃ py, hyStep4 env path ref = .ok (.read (underFolder env root path) py)) ∧
    ((∀ root, ref.root = some root → env.exist (underFolder env root path) = false) →
      hyStep4 env path ref = .ok .none) := by
  unfold hyStep4
  cases hr : ref.root with
  | none => simp
  | some root =>
    obtain ⟨py, hp⟩ := makeAbsolute_one_dot path ref h
    dsimp only
    rw [joinPath_one_dot root path env.sep env.ext h]
    dsimp only
    rw [hp]
    dsimp only
    constructor
    · intro r e hx
      simp only [Option.some.injEq] at e
      subst e
      have : env.exist (underFolder env root path) = true := hx
      unfold underFolder at this
      rw [if_pos this]
      exact ⟨py, rfl⟩
    · intro hall
      have := hall root rfl
      unfold underFolder at this
      rw [this]; rfl

/-- C63 (partial). An absolute import path is resolved to the first existing candidate in the
documented order, and to nothing if none exists - if the parent package, when the path has one, can be
imported by Python. What is missing: without that hypothesis the code raises the exception of
`importlib` (`C63_not_in_general`), instead of trying the current and the referrer's folder. -/
theorem C63_resolution_order_partial {E} (env : HyEnv E) (path : Str) (ref : Referrer)
    (hp : path.head? ≠ some '.') (pkg : Option (Str × Str))
    (hpkg : match pkg with
      | some (dir, name) => ∃ parent, path = parent ++ '.' :: name ∧ '.' ∉ name ∧ env.pkgDir parent = .ok dir
      | none => '.' ∉ path) :
    match (candidates env pkg path ref).find? env.exist with
    | some loc => ∃ py, hyLocate env [] path ref = .ok (.read loc py)
    | none => hyLocate env [] path ref = .ok .none := by
  have h4 := hyStep4_spec env path ref hp
  -- step 3
  have h3 : match ([underFolder env env.cwd path] ++
        (ref.root.map (fun root => underFolder env root path)).toList).find? env.exist with
      | some loc => ∃ py, hyStep3 env [] path ref = .ok (.read loc py)
      | none => hyStep3 env [] path ref = .ok .none := by
    have e3 : hyStep3 env [] path ref =
        if env.exist (underFolder env env.cwd path) then .ok (.read (underFolder env env.cwd path) none)
        else hyStep4 env path ref := by
      unfold hyStep3
      rw [joinPath_one_dot _ _ _ _ hp]
      simp [underFolder]
    rw [e3]
    by_cases hx : env.exist (underFolder env env.cwd path) = true
    · rw [if_pos hx]
      simp [hx]
    · rw [if_neg hx]
      simp only [List.cons_append, List.nil_append, List.find?_cons, hx]
      cases hr : ref.root with
      | none =>
        simp only [Option.map_none, Option.toList_none, List.find?_nil]
        exact h4.2 (by simp [hr])
      | some root =>
        simp only [Option.map_some, Option.toList_some, List.find?_cons, List.find?_nil]
        by_cases hy : env.exist (underFolder env root path) = true
        · rw [hy]; exact h4.1 root hr hy
        · have hy' : env.exist (underFolder env root path) = false := by simpa using hy
          rw [hy']
          exact h4.2 (by intro r e; rw [hr] at e; simp only [Option.some.injEq] at e; rw [← e]; exact hy')
  -- step 2
  have h2 : match ((pkg.map (fun p => p.1 ++ [env.sep] ++ p.2 ++ env.ext)).toList ++
        ([underFolder env env.cwd path] ++
        (ref.root.map (fun root => underFolder env root path)).toList)).find? env.exist with
      | some loc => ∃ py, hyStep2 env [] path ref = .ok (.read loc py)
      | none => hyStep2 env [] path ref = .ok .none := by
    cases pkg with
    | none =>
      have e2 : hyStep2 env [] path ref = hyStep3 env [] path ref := by
        unfold hyStep2
        rw [if_neg (by simpa [contains] using hpkg)]
      rw [e2]
      exact h3
    | some d =>
      obtain ⟨dir, name⟩ := d
      obtain ⟨parent, hpath, hname, hdir⟩ := hpkg
      have e2 : hyStep2 env [] path ref =
          if env.exist (dir ++ [env.sep] ++ name ++ env.ext) then
            .ok (.read (dir ++ [env.sep] ++ name ++ env.ext)
              (some (dir ++ ['.'] ++ name)))
          else hyStep3 env [] path ref := by
        unfold hyStep2
        rw [if_pos (by rw [hpath]; simp [contains]), hpath, rsplitHead_last hname, rsplitTail_last hname, hdir]
      rw [e2]
      simp only [Option.map_some, Option.toList_some, List.cons_append, List.nil_append,
        List.find?_cons] at h3 ⊢
      by_cases hx : env.exist (dir ++ [env.sep] ++ name ++ env.ext) = true
      · simp only [List.append_assoc, List.cons_append, List.nil_append] at hx ⊢
        rw [hx]; simp
      · simp only [List.append_assoc, List.cons_append, List.nil_append] at hx ⊢
        have hx' := Bool.eq_false_iff.2 hx
        rw [hx']
        simpa using h3
  have e1 : hyLocate env [] path ref = hyStep1 env [] path ref := by
    unfold hyLocate
    rw [if_neg]
    cases path with
    | nil => simp
    | cons c p => simpa using hp
  rw [e1]
  unfold candidates
  rw [List.append_assoc, List.append_assoc]
  unfold hyStep1
  cases hres : env.resolve with
  | none => simpa using h2
  | some f =>
    cases hf : f path with
    | none => simpa [hf] using h2
    | some loc =>
      by_cases hne : loc = []
      · subst hne
        simpa [hf] using h2
      · by_cases hx : env.exist loc = true
        · simp [hf, hne, hx]
        · simpa [hf, hne, hx] using h2

/-- C63 fails in general: the file exists under the current folder, but the parent package is not
importable, so the exception of `importlib` is the outcome. -/
theorem C63_not_in_general :
    ∃ (env : HyEnv String) (path : Str) (ref : Referrer), path.head? ≠ some '.' ∧
      env.exist (underFolder env env.cwd path) = true ∧
      hyLocate env [] path ref = .error (.imp "ModuleNotFoundError") := by
  refine ⟨{ sep := '/', ext := s!!".hy", cwd := s!!"/home", exist := fun l => l = s!!"/home/a/b.hy",
            resolve := none, pkgDir := fun _ => .error "ModuleNotFoundError" },
    s!!"a.b", { root := none, package := none }, by decide, by decide, by decide⟩

/-- An environment with files under the current folder and the referrer's folder. -/
def exampleEnv : HyEnv String where
  sep := '/'
  ext := s!!".hy"
  cwd := s!!"/home"
  exist := fun l => decide (l ∈ [s!!"/home/b.hy", s!!"/ref/b.hy", s!!"/ref/c.hy"])
  resolve := none
  pkgDir := fun _ => .error "ModuleNotFoundError"

example : hyLocate exampleEnv [] (s!!"b") { root := some (s!!"/ref"), package := none } =
    .ok (.read (s!!"/home/b.hy") none) := by decide
example : hyLocate exampleEnv [] (s!!"c") { root := some (s!!"/ref"), package := some (s!!"p.q") } =
    .ok (.read (s!!"/ref/c.hy") (some (s!!"p.q.c"))) := by decide

/-! ### C64 -/

/-- C64 (partial). Scripts imported by undotted absolute paths from modules without a folder are read
at most once each. What is missing: relative imports and imports located through Python packages or
the referrer's folder, for which it fails (`C64_not_in_general`). -/
theorem C64_read_once_partial {E} (env : HyEnv E) (reqs : List (Str × Referrer))
    (h : ∀ q ∈ reqs, '.' ∉ q.1 ∧ q.2.root = none) : (hyRun env [] reqs).Nodup := by
  suffices H : ∀ cache, (hyRun env cache reqs).Nodup ∧ ∀ l ∈ hyRun env cache reqs, l ∉ cache from
    (H []).1
  induction reqs with
  | nil => intro cache; simp [hyRun]
  | cons q reqs ih =>
    intro cache
    have ih' := ih (fun q hq => h q (by simp [hq]))
    obtain ⟨p, r⟩ := q
    obtain ⟨hd, hr⟩ := h (p, r) (by simp)
    dsimp only at hd hr
    have key : ∀ loc py, hyLocate env cache p r = .ok (.read loc py) → loc ∉ cache := by
      intro loc py hloc
      unfold hyLocate at hloc
      have hp : p.head? ≠ some '.' := by
        cases p with
        | nil => simp
        | cons c p => simp only [List.mem_cons, not_or] at hd; simpa using Ne.symm hd.1
      rw [if_neg (by
        cases p with
        | nil => simp
        | cons c p => simpa using hp)] at hloc
      have step3 : hyStep3 env cache p r = .ok (.read loc py) → loc ∉ cache := by
        intro h3
        unfold hyStep3 at h3
        rw [joinPath_one_dot _ _ _ _ hp] at h3
        dsimp only at h3
        generalize (if env.cwd.getLast? = some env.sep then env.cwd.dropLast else env.cwd) ++ [env.sep] ++
          join [env.sep] (split '.' p) ++ env.ext = loc3 at h3
        split at h3
        · simp at h3
        · rename_i hc
          split at h3
          · simp only [Except.ok.injEq, HyChoice.read.injEq] at h3
            rw [← h3.1]; exact hc
          · unfold hyStep4 at h3
            rw [hr] at h3
            simp at h3
      have step2 : hyStep2 env cache p r = .ok (.read loc py) → loc ∉ cache := by
        intro h2
        unfold hyStep2 at h2
        rw [if_neg (by simpa [contains] using hd)] at h2
        exact step3 h2
      unfold hyStep1 at hloc
      split at hloc
      · exact step2 hloc
      · split at hloc
        · exact step2 hloc
        · split at hloc
          · simp at hloc
          · rename_i hc
            split at hloc
            · simp only [Except.ok.injEq, HyChoice.read.injEq] at hloc
              rw [← hloc.1]; exact hc
            · exact step2 hloc
    simp only [hyRun]
    split
    · rename_i loc py hloc
      have hn := key loc py hloc
      obtain ⟨i1, i2⟩ := ih' (loc :: cache)
      refine ⟨List.nodup_cons.2 ⟨fun hm => i2 loc hm (by simp), i1⟩, ?_⟩
      intro l hl
      rcases List.mem_cons.1 hl with e | hl
      · rw [e]; exact hn
      · exact fun hc => i2 l hl (by simp [hc])
    · exact ih' cache

/-- C64 fails in general: the same relative import requested twice is read and translated twice. -/
theorem C64_not_in_general :
    ∃ (env : HyEnv String) (reqs : List (Str × Referrer)), ¬ (hyRun env [] reqs).Nodup := by
  refine ⟨{ sep := '/', ext := s!!".hy", cwd := s!!"/home", exist := fun _ => true,
            resolve := none, pkgDir := fun _ => .error "ModuleNotFoundError" },
    [(s!!".a", { root := some (s!!"/r"), package := none }),
     (s!!".a", { root := some (s!!"/r"), package := none })], by decide⟩

end Verif
