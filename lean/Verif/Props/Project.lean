import Verif.Lemmas.Project

/-
C93: scripts that import scripts.
-/

namespace Verif
open Py Spec

section
variable {M E : Type} {P : Project M E}

/-- C93 (soundness): in any sequence of imports served by one loader that starts with an empty cache,
every module returned is the meaning of its path: the result of translating the file with the meanings of
its own imports, whatever was imported before and by whom. -/
theorem C93_meaning (hP : PlainProject P) (fuel : Nat) (reqs : List (Str × Referrer))
    (hr : ∀ q ∈ reqs, Plain P q.1) {rs st}
    (h : importAll P fuel ⟨[], []⟩ reqs = some (rs, st)) :
    List.Forall₂ (fun q r => ∀ m, r = .ok m → Denotes P q.1 m) reqs rs :=
  (importAll_ok hP goodState_empty hr h).2

/-- C93: a path has at most one meaning. -/
theorem C93_unique {p : Str} {m m' : M} (h : Denotes P p m) (h' : Denotes P p m') : m = m' :=
  denotes_unique h m' h'

/-- C93 (completeness): after any sequence of imports, an import whose path has a meaning ends with
that module. -/
theorem C93_complete (hP : PlainProject P) (fuel : Nat) (reqs : List (Str × Referrer))
    (hr : ∀ q ∈ reqs, Plain P q.1) {rs st}
    (h : importAll P fuel ⟨[], []⟩ reqs = some (rs, st)) {p : Str} {m : M} (hd : Denotes P p m)
    (ref : Referrer) :
    ∃ N st', ∀ n, N ≤ n → importScript P n st p ref = some (.ok m, st') :=
  denotes_runs hP hd st ref (importAll_ok hP goodState_empty hr h).1

/-- C93: in any sequence of imports, with the imports made by the imported scripts, no file is
translated twice. -/
theorem C93_once (hP : PlainProject P) (fuel : Nat) (reqs : List (Str × Referrer))
    (hr : ∀ q ∈ reqs, Plain P q.1) {rs st}
    (h : importAll P fuel ⟨[], []⟩ reqs = some (rs, st)) : st.translated.Nodup :=
  (importAll_ok hP goodState_empty hr h).1.nodup

/-- C93: an import always ends if the chains of imports that start at its file are finite. -/
theorem C93_ends (hP : PlainProject P) (fuel : Nat) (reqs : List (Str × Referrer))
    (hr : ∀ q ∈ reqs, Plain P q.1) {rs st}
    (h : importAll P fuel ⟨[], []⟩ reqs = some (rs, st)) {p : Str} (hp : Plain P p)
    (ha : ∀ loc, At P p loc → Acc (fun l' l => MayImport P l l') loc) (ref : Referrer) :
    ∃ N r, ∀ n, N ≤ n → importScript P n st p ref = some r :=
  importScript_ends hP hp ha st ref (importAll_ok hP goodState_empty hr h).1

/-- C93: a path without dots for which no folder has a script gives, after any sequence of imports, what Python
gives: its module, its exception, or, if it has none either, the error that no module was found. -/
theorem C93_elsewhere (hP : PlainProject P) (fuel : Nat) (reqs : List (Str × Referrer))
    (hr : ∀ q ∈ reqs, Plain P q.1) {rs st}
    (h : importAll P fuel ⟨[], []⟩ reqs = some (rs, st)) {p : Str} (hd : '.' ∉ p)
    (hf : ∀ f, P.env.resolve = some f → f p = none) (hx : ∀ root, P.env.exist (underFolder P.env root p) = false)
    (ref : Referrer) (n : Nat) :
    (∀ m, P.python p ref = .ok (some m) → importScript P (n + 1) st p ref = some (.ok m, st)) ∧
    (∀ e, P.python p ref = .error e → importScript P (n + 1) st p ref = some (.error (.py e), st)) ∧
    (P.python p ref = .ok none → importScript P (n + 1) st p ref = some (.error .notFound, st)) := by
  have hs := (importAll_ok hP goodState_empty hr h).1
  have hl : hyLocate P.env st.cache.keys p ref = .ok .none := by
    have hp : p.head? ≠ some '.' := by
      cases p with
      | nil => simp
      | cons c p => simp only [List.mem_cons, not_or] at hd; simpa using Ne.symm hd.1
    have h4 := (hyStep4_spec P.env p ref hp).2 (fun root _ => hx root)
    have h3 : hyStep3 P.env st.cache.keys p ref = .ok .none := by
      unfold hyStep3
      rw [joinPath_one_dot _ _ _ _ hp]
      dsimp only
      change (if underFolder P.env P.env.cwd p ∈ st.cache.keys then _ else
        if P.env.exist (underFolder P.env P.env.cwd p) = true then _ else _) = _
      rw [hx, if_neg (fun hm => by have := hs.exist _ hm; rw [hx] at this; cases this), if_neg (by simp)]
      exact h4
    have h2 : hyStep2 P.env st.cache.keys p ref = .ok .none := by
      unfold hyStep2
      rw [if_neg (by simpa [contains] using hd)]
      exact h3
    unfold hyLocate
    rw [if_neg (by cases p <;> simp_all)]
    unfold hyStep1
    split
    · exact h2
    · rename_i f hf'
      rw [hf f hf']
      exact h2
  simp only [importScript, hl, fromPython]
  refine ⟨?_, ?_, ?_⟩
  · intro m hm; rw [hm]
  · intro e he; rw [he]
  · intro hn; rw [hn]

/-- C93: files that import each other in a circle can never be imported, however deep the recursion
may go. No assumption is made about the other files. -/
theorem C93_cycle (S : Str → Prop)
    (hS : ∀ l, S l → ∀ pkg, ∃ p l', Demands (P.script l pkg) p ∧ At P p l' ∧ S l')
    (fuel : Nat) : ∀ (reqs : List (Str × Referrer)) (st : HyState M) {rs st'},
    (∀ l, S l → l ∉ st.cache.keys) → importAll P fuel st reqs = some (rs, st') →
    (∀ l, S l → l ∉ st'.cache.keys) ∧
    List.Forall₂ (fun q r => (∃ l, At P q.1 l ∧ S l) → ∀ m, r ≠ .ok m) reqs rs := by
  intro reqs
  induction reqs with
  | nil =>
    intro st rs st' hs h
    simp only [importAll, Option.some.injEq, Prod.mk.injEq] at h
    obtain ⟨rfl, rfl⟩ := h
    exact ⟨hs, .nil⟩
  | cons q reqs ih =>
    intro st rs st' hs h
    obtain ⟨p, ref⟩ := q
    simp only [importAll] at h
    split at h
    · simp at h
    · rename_i r st1 hi
      have h1 := (cycle_run S hS fuel).1 _ _ _ _ hs hi
      rw [Option.map_eq_some_iff] at h
      obtain ⟨⟨rs', st2⟩, h2, h3⟩ := h
      simp only [Prod.mk.injEq] at h3
      obtain ⟨rfl, rfl⟩ := h3
      obtain ⟨g, f⟩ := ih st1 h1.1 h2
      exact ⟨g, .cons (fun ⟨l, hl, hSl⟩ => h1.2 l hl hSl) f⟩

end

/-! ### Examples -/

/-- Five files in the current folder `/w`: `a` imports `b` and `c`, both import `d`, which imports the
Python module `re`; `x` and `y` import each other. A module is the list of the names of the files that
take part in it. -/
def exProject : Project (List Str) Str where
  env := { sep := '/', ext := s!!".hy", cwd := s!!"/w", resolve := none, pkgDir := fun p => .error p,
           exist := fun l => l ∈ [s!!"/w/a.hy", s!!"/w/b.hy", s!!"/w/c.hy", s!!"/w/d.hy", s!!"/w/x.hy", s!!"/w/y.hy"] }
  script := fun l _ =>
    if l = s!!"/w/a.hy" then .request (s!!"b") (fun b => .request (s!!"c") (fun c => .done (.ok (s!!"a" :: b ++ c))))
    else if l = s!!"/w/b.hy" then .request (s!!"d") (fun d => .done (.ok (s!!"b" :: d)))
    else if l = s!!"/w/c.hy" then .request (s!!"d") (fun d => .done (.ok (s!!"c" :: d)))
    else if l = s!!"/w/d.hy" then .request (s!!"re") (fun d => .done (.ok (s!!"d" :: d)))
    else if l = s!!"/w/x.hy" then .request (s!!"d") (fun _ => .request (s!!"y") (fun y => .done (.ok y)))
    else if l = s!!"/w/y.hy" then .request (s!!"x") (fun x => .done (.ok x))
    else .done (.error (s!!"no such file"))
  folder := fun _ => some (s!!"/w")
  python := fun p _ => if p = s!!"re" then .ok (some [s!!"re"]) else .ok none

/-- A root script without a file. -/
def exRoot : Referrer := ⟨none, none⟩

-- `d` is translated once though `b` and `c` both import it, and before them
example : importAll exProject 20 ⟨[], []⟩ [(s!!"a", exRoot), (s!!"b", exRoot), (s!!"e", exRoot)] =
    some ([.ok [s!!"a", s!!"b", s!!"d", s!!"re", s!!"c", s!!"d", s!!"re"],
           .ok [s!!"b", s!!"d", s!!"re"], .error .notFound],
      ⟨[(s!!"/w/d.hy", [s!!"d", s!!"re"]), (s!!"/w/b.hy", [s!!"b", s!!"d", s!!"re"]),
        (s!!"/w/c.hy", [s!!"c", s!!"d", s!!"re"]), (s!!"/w/a.hy", [s!!"a", s!!"b", s!!"d", s!!"re", s!!"c", s!!"d", s!!"re"])],
       [s!!"/w/d.hy", s!!"/w/b.hy", s!!"/w/c.hy", s!!"/w/a.hy"]⟩) := by decide +kernel

-- the circle does not end
example : importAll exProject 40 ⟨[], []⟩ [(s!!"x", exRoot)] = none := by decide +kernel

theorem exProject_at {n : Str} (hn : n ∈ [s!!"a", s!!"b", s!!"c", s!!"d", s!!"x", s!!"y"]) :
    At exProject n (s!!"/w/" ++ n ++ s!!".hy") := by
  simp only [List.mem_cons, List.not_mem_nil, or_false] at hn
  rcases hn with h | h | h | h | h | h <;> subst h <;>
    exact At.folder (P := exProject) (by simp [exProject]) (by decide) (by decide +kernel)

theorem exProject_re : Foreign exProject (s!!"re") (.ok [s!!"re"]) := by
  have hx : ∀ root, exProject.env.exist (underFolder exProject.env root (s!!"re")) = false := by
    intro root
    have hl : underFolder exProject.env root (s!!"re") =
        (if root.getLast? = some '/' then root.dropLast else root) ++ s!!"/re.hy" := by
      simp [underFolder, exProject, split, join]
    rw [hl]
    generalize (if root.getLast? = some '/' then root.dropLast else root) = w
    simp only [exProject, List.mem_cons, List.not_mem_nil, or_false, decide_eq_false_iff_not]
    intro h
    rcases h with h | h | h | h | h | h <;>
      · have := congrArg (fun l => l.reverse.take 6) h
        simp at this
  refine ⟨?_, fun _ => rfl⟩
  intro cache ref hc
  have h4 := (hyStep4_spec exProject.env (s!!"re") ref (by decide)).2 (fun root _ => hx root)
  unfold hyLocate
  rw [if_neg (by decide)]
  unfold hyStep1
  simp only [exProject]
  change hyStep2 exProject.env cache (s!!"re") ref = _
  unfold hyStep2
  rw [if_neg (by decide)]
  unfold hyStep3
  rw [joinPath_one_dot _ _ _ _ (by decide)]
  dsimp only
  change (if underFolder exProject.env exProject.env.cwd (s!!"re") ∈ cache then _ else
    if exProject.env.exist (underFolder exProject.env exProject.env.cwd (s!!"re")) = true then _ else _) = _
  rw [hx, if_neg (fun hm => by have := hc _ hm; rw [hx] at this; simp at this)]
  exact h4

theorem exProject_plain : PlainProject exProject := by
  intro loc p hu
  have hat : ∀ n ∈ [s!!"a", s!!"b", s!!"c", s!!"d", s!!"x", s!!"y"], Plain exProject n :=
    fun n hn => .inl ⟨_, exProject_at hn⟩
  have hre : Plain exProject (s!!"re") := .inr ⟨_, exProject_re⟩
  simp only [exProject] at hu
  split at hu
  · cases hu with
    | here => exact hat _ (by decide)
    | later m hu =>
      cases hu with
      | here => exact hat _ (by decide)
      | later m hu => cases hu
  split at hu
  · cases hu with
    | here => exact hat _ (by decide)
    | later m hu => cases hu
  split at hu
  · cases hu with
    | here => exact hat _ (by decide)
    | later m hu => cases hu
  split at hu
  · cases hu with
    | here => exact hre
    | later m hu => cases hu
  split at hu
  · cases hu with
    | here => exact hat _ (by decide)
    | later m hu =>
      cases hu with
      | here => exact hat _ (by decide)
      | later m hu => cases hu
  split at hu
  · cases hu with
    | here => exact hat _ (by decide)
    | later m hu => cases hu
  · cases hu

-- the meaning of `d`, and of `b` by way of it
example : Denotes exProject (s!!"b") [s!!"b", s!!"d", s!!"re"] :=
  .file (exProject_at (n := s!!"b") (by decide)) (.mk (.step (.file (exProject_at (n := s!!"d") (by decide))
    (.mk (.step (.python exProject_re) .done))) .done))

-- whatever was imported before, `b` gives that module
example (reqs : List (Str × Referrer)) (hr : ∀ q ∈ reqs, Plain exProject q.1) (fuel : Nat) {rs st}
    (h : importAll exProject fuel ⟨[], []⟩ reqs = some (rs, st)) (ref : Referrer) :
    ∃ N st', ∀ n, N ≤ n → importScript exProject n st (s!!"b") ref = some (.ok [s!!"b", s!!"d", s!!"re"], st') :=
  C93_complete exProject_plain fuel reqs hr h
    (.file (exProject_at (n := s!!"b") (by decide)) (.mk (.step (.file (exProject_at (n := s!!"d") (by decide))
      (.mk (.step (.python exProject_re) .done))) .done))) ref

-- `x` and `y` can never be imported
example (reqs : List (Str × Referrer)) (fuel : Nat) {rs st}
    (h : importAll exProject fuel ⟨[], []⟩ reqs = some (rs, st)) :
    List.Forall₂ (fun q r => q.1 = s!!"x" → ∀ m, r ≠ .ok m) reqs rs := by
  have := (C93_cycle (P := exProject) (fun l => l = s!!"/w/x.hy" ∨ l = s!!"/w/y.hy") (by
    intro l hl pkg
    rcases hl with rfl | rfl
    · exact ⟨s!!"y", _, .later (fun _ => .here), exProject_at (by decide), .inr rfl⟩
    · exact ⟨s!!"x", _, .here, exProject_at (by decide), .inl rfl⟩) fuel reqs ⟨[], []⟩
    (by simp [Dict.keys]) h).2
  clear h
  induction this with
  | nil => exact .nil
  | cons hq _ ih => exact .cons (fun e => hq ⟨_, e ▸ exProject_at (by decide), .inl rfl⟩) ih

end Verif
