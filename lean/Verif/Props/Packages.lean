import Verif.Spec.Packages
import Verif.Props.Loader
import Verif.Props.Project

/-! Property C99: packages of imported scripts and relative imports. -/

namespace Verif
open Py Spec

section
variable {M E : Type}

theorem join_snoc {sep : Char} {a : List Str} {b : Str} (h : a ≠ []) : join [sep] (a ++ [b]) = join [sep] a ++ sep :: b := by
  induction a with
  | nil => exact absurd rfl h
  | cons x a ih =>
    cases a with
    | nil => simp [join]
    | cons y a => 
      have := ih (by simp)
      simp only [List.cons_append, join, List.append_assoc] at this ⊢
      rw [this]

theorem join_last {sep : Char} {a : List Str} (h : a ≠ []) (h1 : ∀ c ∈ a, sep ∉ c) (h2 : ∀ c, a.getLast? = some c → c ≠ []) :
    (join [sep] a).getLast? ≠ some sep := by
  rw [← List.dropLast_concat_getLast h]
  have hm := List.getLast_mem h
  have hl := h2 _ (List.getLast?_eq_some_getLast h)
  have hs := h1 _ hm
  generalize a.getLast h = b at hl hs
  have hb : b.getLast? ≠ some sep := by
    intro e
    exact hs (List.mem_of_getLast? e)
  cases hd : a.dropLast with
  | nil => simpa [join] using hb
  | cons x d =>
    rw [join_snoc (by simp)]
    rw [List.getLast?_append]
    cases b with
    | nil => exact absurd rfl hl
    | cons c b => simpa [List.getLast?_cons_cons] using hb

theorem names_dots {names : List Str} (h : ∀ c ∈ names, c ≠ [] ∧ '.' ∉ c) (hne : names ≠ []) :
    split '.' (join ['.'] names) = names ∧ (join ['.'] names).head? ≠ some '.' := by
  refine ⟨split_join hne (fun c hc => (h c hc).2), ?_⟩
  cases names with
  | nil => exact absurd rfl hne
  | cons n ns =>
    have := h n (List.mem_cons_self ..)
    cases n with
    | nil => exact absurd rfl this.1
    | cons c n =>
      have hc : c ≠ '.' := fun e => this.2 (by simp [e])
      cases ns <;> simp [join, hc]

/-- Relative paths. -/
theorem joinPath_relative {sep : Char} {comps : List Str} (hne : comps ≠ []) (hc : ∀ c ∈ comps, sep ∉ c)
    (hl : ∀ c, comps.getLast? = some c → c ≠ []) {k : Nat} (hk : 0 < k) {names : List Str} (hn : ∀ c ∈ names, c ≠ [] ∧ '.' ∉ c) (hnn : names ≠ [])
    (ext : Option Str) :
    joinPath (some (join [sep] comps)) (relativePath k names) sep ext =
      if comps.length < k then .error .importError else .ok (some (join [sep] (above comps k ++ names) ++ ext.getD [])) := by
  obtain ⟨h1, h2⟩ := names_dots hn hnn
  have := C28_join_path sep comps hne hc false (fun _ => join_last hne hc hl) k hk _ h2 ext
  simp only [Bool.false_eq_true, if_false, List.append_nil, h1] at this
  exact this

theorem above_ne {comps : List Str} {k : Nat} (hk : 0 < k) (h : k ≤ comps.length) : above comps k ≠ [] := by
  unfold above
  intro e
  have := congrArg List.length e
  simp at this
  omega

theorem above_append (top comps : List Str) {k : Nat} (hk : 0 < k) (h : k ≤ comps.length) : above (top ++ comps) k = top ++ above comps k := by
  unfold above
  rw [List.length_append, Nat.add_sub_assoc (by omega), List.take_append, List.take_of_length_le (by omega)]
  congr 2
  omega

/-- What is read for a relative path, and where it is. -/
theorem relative_read {P : Project M E} (hP : Folders P) {top comps : List Str} {ref : Referrer} (h : Placed P.env.sep top comps ref)
    (hext : P.env.sep ∉ P.env.ext) {k : Nat} (hk : 0 < k) (hkc : k ≤ comps.length) {names : List Str} (hn : ∀ c ∈ names, PathName P.env.sep c) (hnn : names ≠ []) :
    joinPath ref.root (relativePath k names) P.env.sep (some P.env.ext) =
      .ok (some (join [P.env.sep] (top ++ above comps k ++ names) ++ P.env.ext)) ∧
    makeAbsolute (relativePath k names) ref = .ok (some (join ['.'] (above comps k ++ names))) ∧
    Placed P.env.sep top (above comps k ++ names.dropLast)
      { root := P.folder (join [P.env.sep] (top ++ above comps k ++ names) ++ P.env.ext),
        package := packageOf (some (join ['.'] (above comps k ++ names))) } := by
  have hn' : ∀ c ∈ names, c ≠ [] ∧ '.' ∉ c := fun c hc => ⟨(hn c hc).1, (hn c hc).2.2⟩
  have hlast : ∀ c, comps.getLast? = some c → c ≠ [] := fun c hc => (h.names c (List.mem_of_getLast? hc)).1
  have hcat : ∀ c ∈ top ++ comps, P.env.sep ∉ c := fun c hc => (List.mem_append.1 hc).elim (h.outside c) (fun hc => (h.names c hc).2.1)
  have ha : ∀ c ∈ above comps k, PathName P.env.sep c := fun c hc => h.names c (List.mem_of_mem_take hc)
  have hl : P.env.sep ∉ names.getLast hnn := (hn _ (List.getLast_mem hnn)).2.1
  have e1 : names = names.dropLast ++ [names.getLast hnn] := (List.dropLast_concat_getLast hnn).symm
  refine ⟨?_, ?_, ?_⟩
  · rw [h.root, joinPath_relative (by simp [h.inside]) hcat
      (fun c hc => hlast c (by rw [List.getLast?_append, List.getLast?_eq_some_getLast h.inside] at hc; rw [List.getLast?_eq_some_getLast h.inside]; simpa using hc)) hk hn' hnn, if_neg (by simp; omega), above_append _ _ hk hkc]
    rfl
  · unfold makeAbsolute
    have : (relativePath k names).take 1 = ['.'] := by
      obtain ⟨j, rfl⟩ : ∃ j, k = j + 1 := ⟨k - 1, by omega⟩
      simp [relativePath, List.replicate_succ]
    rw [if_neg (by simp [this]), h.package, joinPath_relative h.inside (fun c hc => (h.names c hc).2.2) hlast hk hn' hnn, if_neg (by omega)]
    simp
  · have hne := above_ne hk hkc
    refine ⟨h.outside, fun c hc => ?_, by simp [hne], ?_, ?_⟩
    · rcases List.mem_append.1 hc with hc | hc
      · exact ha c hc
      · exact hn c (List.dropLast_subset _ hc)
    · show P.folder _ = _
      rw [e1]
      rw [← List.append_assoc, join_snoc (by simp [hne]), List.append_assoc, List.cons_append]
      rw [hP _ _ ?_ ?_]
      · simp
      · intro e
        cases hq : above comps k with
        | nil => exact hne hq
        | cons c l =>
          have hc := (ha c (by simp [hq])).1
          have : c ∈ top ++ above comps k ++ names.dropLast := by simp [hq]
          revert e this
          generalize top ++ above comps k ++ names.dropLast = x
          clear e1
          intro e this
          induction x with
          | nil => simp at this
          | cons y x ih =>
            cases x with
            | nil =>
              simp only [List.mem_singleton] at this
              simp only [join] at e
              exact hc (this.trans e)
            | cons z x => simp [join] at e
      · simp only [List.mem_append, not_or]
        exact ⟨hl, hext⟩
    · show packageOf _ = _
      have hq : join ['.'] (above comps k ++ names) = join ['.'] (above comps k ++ names.dropLast) ++ '.' :: names.getLast hnn := by
        conv_lhs => rw [e1, ← List.append_assoc, join_snoc (by simp [hne])]
      rw [hq]
      have : ∀ s t : Str, packageOf (some (s ++ '.' :: t)) = some (rsplitHead '.' (s ++ '.' :: t)) := by
        intro s t; cases s <;> rfl
      rw [this, rsplitHead_last (hn _ (List.getLast_mem hnn)).2.2]

/-- C99 (partial). A relative import finds the script in the package that the path denotes - as many levels above as there are further dots -
and the script found is known to be in that package, so that its own relative imports start there. What is missing: absolute imports through
Python packages (`C99_not_in_general`). -/
theorem C99_relative_partial (P : Project M E) (hP : Folders P) (top comps : List Str) (ref : Referrer) (h : Placed P.env.sep top comps ref)
    (hext : P.env.sep ∉ P.env.ext) (k : Nat) (hk : 0 < k) (hkc : k ≤ comps.length) (names : List Str) (hn : ∀ c ∈ names, PathName P.env.sep c)
    (hnn : names ≠ []) (fuel : Nat) (st : HyState M) :
    ∃ ref', Placed P.env.sep top (above comps k ++ names.dropLast) ref' ∧
      importScript P (fuel + 1) st (relativePath k names) ref =
        if P.env.exist (join [P.env.sep] (top ++ above comps k ++ names) ++ P.env.ext) then
          keepModule (join [P.env.sep] (top ++ above comps k ++ names) ++ P.env.ext)
            (runScript P fuel st ref' (P.script (join [P.env.sep] (top ++ above comps k ++ names) ++ P.env.ext) ref'.package))
        else some (fromPython P (relativePath k names) ref, st) := by
  obtain ⟨h1, h2, h3⟩ := relative_read hP h hext hk hkc hn hnn
  refine ⟨_, h3, ?_⟩
  have ht : (relativePath k names).take 1 = ['.'] := by
    obtain ⟨j, rfl⟩ : ∃ j, k = j + 1 := ⟨k - 1, by omega⟩
    simp [relativePath, List.replicate_succ]
  rw [importScript]
  unfold hyLocate
  rw [if_pos ht]
  have hr := h.root
  rw [hr] at h1 ⊢
  simp only
  rw [h1]
  simp only
  rw [h2]
  simp only
  by_cases hx : P.env.exist (join [P.env.sep] (top ++ above comps k ++ names) ++ P.env.ext) = true
  · rw [if_pos hx, if_pos hx]
  · rw [if_neg hx, if_neg hx]

/-- C99. If there is no such script, Python is asked for the module in the same place of the package. -/
theorem C99_python (sep : Char) (top comps : List Str) (ref : Referrer) (h : Placed sep top comps ref) (k : Nat) (hk : 0 < k) (hkc : k ≤ comps.length)
    (names : List Str) (hn : ∀ c ∈ names, PathName sep c) (hnn : names ≠ []) :
    makeAbsolute (relativePath k names) ref = .ok (some (join ['.'] (above comps k ++ names))) := by
  unfold makeAbsolute
  have : (relativePath k names).take 1 = ['.'] := by
    obtain ⟨j, rfl⟩ : ∃ j, k = j + 1 := ⟨k - 1, by omega⟩
    simp [relativePath, List.replicate_succ]
  rw [if_neg (by simp [this]), h.package, joinPath_relative h.inside (fun c hc => (h.names c hc).2.2)
    (fun c hc => (h.names c (List.mem_of_getLast? hc)).1) hk (fun c hc => ⟨(hn c hc).1, (hn c hc).2.2⟩) hnn, if_neg (by omega)]
  simp

/-- C99. An import from above the top package is rejected, whatever files exist. -/
theorem C99_beyond (P : Project M E) (top comps : List Str) (ref : Referrer) (h : Placed P.env.sep top comps ref) (k : Nat)
    (hkc : comps.length < k) (names : List Str) (hn : ∀ c ∈ names, PathName P.env.sep c) (hnn : names ≠ []) (fuel : Nat) (st : HyState M) :
    importScript P (fuel + 1) st (relativePath k names) ref = some (.error (.hy (.path .importError)), st) := by
  have hk : 0 < k := by omega
  have hn' : ∀ c ∈ names, c ≠ [] ∧ '.' ∉ c := fun c hc => ⟨(hn c hc).1, (hn c hc).2.2⟩
  have hlast : ∀ c, comps.getLast? = some c → c ≠ [] := fun c hc => (h.names c (List.mem_of_getLast? hc)).1
  have hcat : ∀ c ∈ top ++ comps, P.env.sep ∉ c := fun c hc => (List.mem_append.1 hc).elim (h.outside c) (fun hc => (h.names c hc).2.1)
  have ht : (relativePath k names).take 1 = ['.'] := by
    obtain ⟨j, rfl⟩ : ∃ j, k = j + 1 := ⟨k - 1, by omega⟩
    simp [relativePath, List.replicate_succ]
  have h2 : makeAbsolute (relativePath k names) ref = .error .importError := by
    unfold makeAbsolute
    rw [if_neg (by simp [ht]), h.package, joinPath_relative h.inside (fun c hc => (h.names c hc).2.2) hlast hk hn' hnn, if_pos hkc]
  rw [importScript]
  unfold hyLocate
  rw [if_pos ht, h.root]
  simp only
  rw [joinPath_relative (by simp [h.inside]) hcat
    (fun c hc => hlast c (by rw [List.getLast?_append, List.getLast?_eq_some_getLast h.inside] at hc; rw [List.getLast?_eq_some_getLast h.inside]; simpa using hc)) hk hn' hnn]
  by_cases hx : (top ++ comps).length < k
  · rw [if_pos hx]
  · rw [if_neg hx]
    simp only
    rw [h2]

/-- A project: a package `pkg` in the folder `/lib`, with the scripts `a` and `sub.b`. Scripts end at once. -/
def exPkg : Project Nat Unit where
  env := { sep := '/', ext := s!!".hy", cwd := s!!"/home", exist := fun l => decide (l ∈ [s!!"/lib/pkg/a.hy", s!!"/lib/pkg/sub/b.hy"]), resolve := none,
           pkgDir := fun p => if p = s!!"pkg" then .ok (s!!"/lib/pkg") else if p = s!!"pkg.sub" then .ok (s!!"/lib/pkg/sub") else .error () }
  script loc pkg :=
    if loc = s!!"/lib/pkg/sub/b.hy" then .request (s!!"..a") (fun m => .done (.ok (m + 10))) else .done (.ok (if pkg = some (s!!"pkg") then 1 else 2))
  folder s := some (rsplitHead '/' s)
  python _ _ := .ok none

/-- C99 fails for absolute imports through Python packages: the script is said to be in a package that has the path of its folder as its name,
so its relative import of a script one level above, which exists, is rejected. When it is found by a relative import, it works. -/
theorem C99_not_in_general : ∃ (P : Project Nat Unit) (top : List Str) (pkg name : Str),
    hyLocate P.env [] (pkg ++ '.' :: name) ⟨none, none⟩ = .ok (.read (join [P.env.sep] (top ++ split '.' pkg ++ [name]) ++ P.env.ext)
      (some (join [P.env.sep] (top ++ split '.' pkg) ++ '.' :: name))) ∧
    importScript P 9 ⟨[], []⟩ (pkg ++ '.' :: name) ⟨none, none⟩ = some (.error (.hy (.path .importError)), ⟨[], []⟩) ∧
    (importScript P 9 ⟨[], []⟩ (s!!".sub.b") ⟨some (s!!"/lib/pkg"), some (s!!"pkg")⟩).map Prod.fst = some (.ok 11) :=
  ⟨exPkg, [[], s!!"lib"], s!!"pkg.sub", s!!"b", by decide, by decide, by decide⟩

theorem exPkg_folders : Folders exPkg := by
  intro dir name _ h
  show some (rsplitHead '/' (dir ++ '/' :: name)) = _
  have h : '/' ∉ name := h
  rw [rsplitHead_last h]

/-- A script of the package `pkg.sub`. -/
theorem exPkg_placed : Placed '/' [[], s!!"lib"] [s!!"pkg", s!!"sub"] ⟨some (s!!"/lib/pkg/sub"), some (s!!"pkg.sub")⟩ := by
  refine ⟨by decide, ?_, by decide, by decide, by decide⟩
  unfold PathName
  decide

/-- Its relative import of a script one level above. -/
example : ∃ ref', Placed '/' [[], s!!"lib"] [s!!"pkg"] ref' ∧
    importScript exPkg 9 ⟨[], []⟩ (s!!"..a") ⟨some (s!!"/lib/pkg/sub"), some (s!!"pkg.sub")⟩ =
      keepModule (s!!"/lib/pkg/a.hy") (runScript exPkg 8 ⟨[], []⟩ ref' (exPkg.script (s!!"/lib/pkg/a.hy") ref'.package)) := by
  obtain ⟨ref', h1, h2⟩ := C99_relative_partial exPkg exPkg_folders _ _ _ exPkg_placed (by decide) 2 (by decide) (by decide) [s!!"a"]
    (by unfold PathName; decide) (by decide) 8 ⟨[], []⟩
  exact ⟨ref', h1, h2⟩

end
end Verif
