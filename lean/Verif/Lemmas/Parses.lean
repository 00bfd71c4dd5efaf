import Verif.Lemmas.Peg

/-
Matching of expressions as relations, without the fuel: `Yields G p s t rest` and `Fails G p s`.
-/

namespace Verif
open Py

section
variable {N : Type} (G : N → Peg N)

/-- `p` matches a beginning of `s` with the tree `t`; `rest` remains. -/
def Yields (p : Peg N) (s : Str) (t : PTree N) (rest : Str) : Prop := ∃ f, run G f p s = .ok t rest
/-- `p` does not match at the beginning of `s`. -/
def Fails (p : Peg N) (s : Str) : Prop := ∃ f, run G f p s = .fail
/-- A sequence of expressions matches. -/
def YieldsSeq (ps : List (Peg N)) (s : Str) (ts : List (PTree N)) (rest : Str) : Prop :=
  ∃ f, runSeq G f ps s = .ok ts rest
/-- A sequence of expressions does not match. -/
def FailsSeq (ps : List (Peg N)) (s : Str) : Prop := ∃ f, runSeq G f ps s = .fail
/-- One of several expressions matches, the earlier ones fail. -/
def YieldsAlt (ps : List (Peg N)) (s : Str) (t : PTree N) (rest : Str) : Prop :=
  ∃ f, runAlt G f ps s = .ok t rest
/-- All of the expressions fail. -/
def FailsAlt (ps : List (Peg N)) (s : Str) : Prop := ∃ f, runAlt G f ps s = .fail
/-- Repetition `p*`. -/
def YieldsStar (p : Peg N) (s : Str) (ts : List (PTree N)) (rest : Str) : Prop :=
  ∃ f, runStar G f p s = .ok ts rest
/-- Repetition `p+`, after the first match. -/
def YieldsMore (p : Peg N) (s : Str) (ts : List (PTree N)) (rest : Str) : Prop :=
  ∃ f, runMore G f p s = .ok ts rest

variable {G}

theorem Yields.unique {p : Peg N} {s : Str} {t t' : PTree N} {r r' : Str}
    (h : Yields G p s t r) (h' : Yields G p s t' r') : t = t' ∧ r = r' := by
  obtain ⟨f, h⟩ := h
  obtain ⟨f', h'⟩ := h'
  have h1 := run_mono G (Nat.le_max_left f f') h (by simp)
  have h2 := run_mono G (Nat.le_max_right f f') h' (by simp)
  rw [h1] at h2
  simpa using h2

theorem Yields.not_fails {p : Peg N} {s : Str} {t : PTree N} {r : Str}
    (h : Yields G p s t r) (h' : Fails G p s) : False := by
  obtain ⟨f, h⟩ := h
  obtain ⟨f', h'⟩ := h'
  have h1 := run_mono G (Nat.le_max_left f f') h (by simp)
  have h2 := run_mono G (Nat.le_max_right f f') h' (by simp)
  rw [h1] at h2
  cases h2

theorem Yields.whole {p : Peg N} {s : Str} {t : PTree N} {r : Str} (h : Yields G p s t r) :
    t.text ++ r = s := by
  obtain ⟨f, h⟩ := h
  have := (run_whole G f).1 p s
  rw [h] at this
  exact this.1

theorem Yields.lit (l rest : Str) : Yields G (.lit l) (l ++ rest) (.node none l []) rest := by
  refine ⟨1, ?_⟩
  simp [run, runLit, anon, consumed_of_append]

theorem Fails.lit {l s : Str} (h : l.isPrefixOf s = false) : Fails G (.lit l) s :=
  ⟨1, by simp [run, runLit, h]⟩

theorem Yields.rx {r : RE} {s rest : Str} (h : r.match? s = some rest) :
    Yields G (.rx r) s (.node none (consumed s rest) []) rest :=
  ⟨1, by simp [run, runRx, h, anon]⟩

theorem Fails.rx {r : RE} {s : Str} (h : r.match? s = none) : Fails G (.rx r) s :=
  ⟨1, by simp [run, runRx, h]⟩

theorem Yields.ref {n : N} {s rest : Str} {t : PTree N} (h : Yields G (G n) s t rest) :
    Yields G (.ref n) s (t.rename n) rest := by
  obtain ⟨f, h⟩ := h
  exact ⟨f + 1, by simp [run, h, PRes.map]⟩

theorem Fails.ref {n : N} {s : Str} (h : Fails G (G n) s) : Fails G (.ref n) s := by
  obtain ⟨f, h⟩ := h
  exact ⟨f + 1, by simp [run, h, PRes.map]⟩

theorem Yields.seq {ps : List (Peg N)} {s rest : Str} {ts : List (PTree N)}
    (h : YieldsSeq G ps s ts rest) : Yields G (.seq ps) s (.node none (consumed s rest) ts) rest := by
  obtain ⟨f, h⟩ := h
  exact ⟨f + 1, by simp [run, h, wrapMany, anon]⟩

theorem Fails.seq {ps : List (Peg N)} {s : Str} (h : FailsSeq G ps s) : Fails G (.seq ps) s := by
  obtain ⟨f, h⟩ := h
  exact ⟨f + 1, by simp [run, h, wrapMany]⟩

theorem YieldsSeq.nil (s : Str) : YieldsSeq G [] s [] s := ⟨1, rfl⟩

theorem YieldsSeq.cons {p : Peg N} {ps : List (Peg N)} {s m rest : Str} {t : PTree N}
    {ts : List (PTree N)} (h : Yields G p s t m) (h' : YieldsSeq G ps m ts rest) :
    YieldsSeq G (p :: ps) s (t :: ts) rest := by
  obtain ⟨f, h⟩ := h
  obtain ⟨f', h'⟩ := h'
  refine ⟨max f f' + 1, ?_⟩
  have h1 := run_mono G (Nat.le_max_left f f') h (by simp)
  have h2 := runSeq_mono G (Nat.le_max_right f f') h' (by simp)
  simp [runSeq, h1, h2, PRes.map]

theorem FailsSeq.head {p : Peg N} {ps : List (Peg N)} {s : Str} (h : Fails G p s) :
    FailsSeq G (p :: ps) s := by
  obtain ⟨f, h⟩ := h
  exact ⟨f + 1, by simp [runSeq, h]⟩

theorem FailsSeq.tail {p : Peg N} {ps : List (Peg N)} {s m : Str} {t : PTree N}
    (h : Yields G p s t m) (h' : FailsSeq G ps m) : FailsSeq G (p :: ps) s := by
  obtain ⟨f, h⟩ := h
  obtain ⟨f', h'⟩ := h'
  refine ⟨max f f' + 1, ?_⟩
  have h1 := run_mono G (Nat.le_max_left f f') h (by simp)
  have h2 := runSeq_mono G (Nat.le_max_right f f') h' (by simp)
  simp [runSeq, h1, h2, PRes.map]

theorem Yields.alt {ps : List (Peg N)} {s rest : Str} {t : PTree N}
    (h : YieldsAlt G ps s t rest) : Yields G (.alt ps) s (.node none (consumed s rest) [t]) rest := by
  obtain ⟨f, h⟩ := h
  exact ⟨f + 1, by simp [run, h, wrapOne, anon]⟩

theorem Fails.alt {ps : List (Peg N)} {s : Str} (h : FailsAlt G ps s) : Fails G (.alt ps) s := by
  obtain ⟨f, h⟩ := h
  exact ⟨f + 1, by simp [run, h, wrapOne]⟩

theorem YieldsAlt.here {p : Peg N} {ps : List (Peg N)} {s rest : Str} {t : PTree N}
    (h : Yields G p s t rest) : YieldsAlt G (p :: ps) s t rest := by
  obtain ⟨f, h⟩ := h
  exact ⟨f + 1, by simp [runAlt, h]⟩

theorem YieldsAlt.there {p : Peg N} {ps : List (Peg N)} {s rest : Str} {t : PTree N}
    (h : Fails G p s) (h' : YieldsAlt G ps s t rest) : YieldsAlt G (p :: ps) s t rest := by
  obtain ⟨f, h⟩ := h
  obtain ⟨f', h'⟩ := h'
  refine ⟨max f f' + 1, ?_⟩
  have h1 := run_mono G (Nat.le_max_left f f') h (by simp)
  have h2 := runAlt_mono G (Nat.le_max_right f f') h' (by simp)
  simp [runAlt, h1, h2]

theorem FailsAlt.nil (s : Str) : FailsAlt G [] s := ⟨1, rfl⟩

theorem FailsAlt.cons {p : Peg N} {ps : List (Peg N)} {s : Str}
    (h : Fails G p s) (h' : FailsAlt G ps s) : FailsAlt G (p :: ps) s := by
  obtain ⟨f, h⟩ := h
  obtain ⟨f', h'⟩ := h'
  refine ⟨max f f' + 1, ?_⟩
  have h1 := run_mono G (Nat.le_max_left f f') h (by simp)
  have h2 := runAlt_mono G (Nat.le_max_right f f') h' (by simp)
  simp [runAlt, h1, h2]

theorem Yields.opt_some {p : Peg N} {s rest : Str} {t : PTree N} (h : Yields G p s t rest) :
    Yields G (.opt p) s (.node none (consumed s rest) [t]) rest := by
  obtain ⟨f, h⟩ := h
  exact ⟨f + 1, by simp [run, h, wrapOpt, anon]⟩

theorem Yields.opt_none {p : Peg N} {s : Str} (h : Fails G p s) :
    Yields G (.opt p) s (.node none [] []) s := by
  obtain ⟨f, h⟩ := h
  exact ⟨f + 1, by simp [run, h, wrapOpt, anon, consumed_self]⟩

theorem Yields.not {p : Peg N} {s : Str} (h : Fails G p s) :
    Yields G (.not p) s (.node none [] []) s := by
  obtain ⟨f, h⟩ := h
  exact ⟨f + 1, by simp [run, h, wrapNot, anon, consumed_self]⟩

theorem Fails.not {p : Peg N} {s rest : Str} {t : PTree N} (h : Yields G p s t rest) :
    Fails G (.not p) s := by
  obtain ⟨f, h⟩ := h
  exact ⟨f + 1, by simp [run, h, wrapNot]⟩

theorem Yields.star {p : Peg N} {s rest : Str} {ts : List (PTree N)}
    (h : YieldsStar G p s ts rest) : Yields G (.star p) s (.node none (consumed s rest) ts) rest := by
  obtain ⟨f, h⟩ := h
  exact ⟨f + 1, by simp [run, h, wrapMany, anon]⟩

theorem YieldsStar.nil {p : Peg N} {s : Str} (h : Fails G p s) : YieldsStar G p s [] s := by
  obtain ⟨f, h⟩ := h
  exact ⟨f + 1, by simp [runStar, h]⟩

theorem YieldsStar.cons {p : Peg N} {s m rest : Str} {t : PTree N} {ts : List (PTree N)}
    (h : Yields G p s t m) (hne : m.length ≠ s.length) (h' : YieldsStar G p m ts rest) :
    YieldsStar G p s (t :: ts) rest := by
  obtain ⟨f, h⟩ := h
  obtain ⟨f', h'⟩ := h'
  refine ⟨max f f' + 1, ?_⟩
  have h1 := run_mono G (Nat.le_max_left f f') h (by simp)
  have h2 := runStar_mono G (Nat.le_max_right f f') h' (by simp)
  simp [runStar, h1, h2, PRes.map, hne]

theorem YieldsMore.nil {p : Peg N} {s : Str} (h : Fails G p s) : YieldsMore G p s [] s := by
  obtain ⟨f, h⟩ := h
  exact ⟨f + 1, by simp [runMore, h]⟩

theorem YieldsMore.cons {p : Peg N} {s m rest : Str} {t : PTree N} {ts : List (PTree N)}
    (h : Yields G p s t m) (hne : m.length ≠ s.length) (h' : YieldsMore G p m ts rest) :
    YieldsMore G p s (t :: ts) rest := by
  obtain ⟨f, h⟩ := h
  obtain ⟨f', h'⟩ := h'
  refine ⟨max f f' + 1, ?_⟩
  have h1 := run_mono G (Nat.le_max_left f f') h (by simp)
  have h2 := runMore_mono G (Nat.le_max_right f f') h' (by simp)
  simp [runMore, h1, h2, PRes.map, hne]

theorem Yields.plus {p : Peg N} {s m rest : Str} {t : PTree N} {ts : List (PTree N)}
    (h : Yields G p s t m) (hne : m.length ≠ s.length) (h' : YieldsMore G p m ts rest) :
    Yields G (.plus p) s (.node none (consumed s rest) (t :: ts)) rest := by
  obtain ⟨f, h⟩ := h
  obtain ⟨f', h'⟩ := h'
  refine ⟨max f f' + 2, ?_⟩
  have h1 := run_mono G (Nat.le_max_left f f') h (by simp)
  have h2 := runMore_mono G (Nat.le_max_right f f') h' (by simp)
  simp [run, runPlus, h1, h2, PRes.map, hne, wrapMany, anon]

theorem Fails.plus {p : Peg N} {s : Str} (h : Fails G p s) : Fails G (.plus p) s := by
  obtain ⟨f, h⟩ := h
  exact ⟨f + 2, by simp [run, runPlus, h, wrapMany]⟩

/-- In a grammar without left recursion, each expression matches or fails. -/
theorem NoLeftRec.total {nul : N → Bool} {rank : N → Nat} {K S : Nat}
    (W : NoLeftRec G nul rank K S) (p : Peg N) (s : Str) :
    (∃ t rest, Yields G p s t rest) ∨ Fails G p s := by
  have h := (W.run_result (fuelFor K S s.length K p.size) s.length K p.size (Nat.le_refl _)).1
    p s (Nat.le_refl _) (Peg.leftBelow_top W.rank_lt p) (Nat.le_refl _)
  cases hr : run G (fuelFor K S s.length K p.size) p s with
  | timeout => exact absurd hr h
  | fail => exact .inr ⟨_, hr⟩
  | ok t rest => exact .inl ⟨t, rest, _, hr⟩

/-- An option always matches. -/
theorem NoLeftRec.opt {nul : N → Bool} {rank : N → Nat} {K S : Nat}
    (W : NoLeftRec G nul rank K S) (p : Peg N) (s : Str) : ∃ t rest, Yields G (.opt p) s t rest := by
  rcases W.total p s with ⟨t, rest, h⟩ | h
  · exact ⟨_, _, .opt_some h⟩
  · exact ⟨_, _, .opt_none h⟩

end
end Verif
