import Verif.Lemmas.Start
import Verif.Lemmas.Grammar
import Verif.Model.Setup

/-
From a text to the nodes built of it, expression by expression of the grammar: `Builds k p x rest bs`
tells that `p`, at the position `k` of the text `x ++ rest`, consumes `x`, and the nodes `bs` are the
result.
-/

namespace Verif
open Py

section
variable {M : Marks} {U : Uni} {P : Type} {names : Str → Option Char} {full : Str}

theorem Fails.first {p : Peg NT} {s : Str} (k : Nat)
    (h : Peg.nope (rule M U) k p s.head? = true) : Fails (rule M U) p s := by
  rcases (rule_noLeftRec M U).total p s with ⟨t, rest, f, h'⟩ | h'
  · exact absurd h' ((nope_run _ k f).1 _ _ _ _ h)
  · exact h'

variable (M U P names full)

/-- `p` consumes `x` and gives `bs`. -/
def Builds (k : Nat) (p : Peg NT) (x rest : Str) (bs : List (Built P)) : Prop :=
  ∃ t, Yields (rule M U) p (x ++ rest) t rest ∧ buildAll names full (rewrite k t) = .ok bs
/-- The same for a sequence. -/
def BuildsSeq (k : Nat) (ps : List (Peg NT)) (x rest : Str) (bs : List (Built P)) : Prop :=
  ∃ ts, YieldsSeq (rule M U) ps (x ++ rest) ts rest ∧ buildAll names full (rewrites k ts) = .ok bs
/-- The same for alternatives. -/
def BuildsAlt (k : Nat) (ps : List (Peg NT)) (x rest : Str) (bs : List (Built P)) : Prop :=
  ∃ t, YieldsAlt (rule M U) ps (x ++ rest) t rest ∧ buildAll names full (rewrite k t) = .ok bs
/-- The same for `p*`. -/
def BuildsStar (k : Nat) (p : Peg NT) (x rest : Str) (bs : List (Built P)) : Prop :=
  ∃ ts, YieldsStar (rule M U) p (x ++ rest) ts rest ∧ buildAll names full (rewrites k ts) = .ok bs
/-- The same for `p+`, after the first match. -/
def BuildsMore (k : Nat) (p : Peg NT) (x rest : Str) (bs : List (Built P)) : Prop :=
  ∃ ts, YieldsMore (rule M U) p (x ++ rest) ts rest ∧ buildAll names full (rewrites k ts) = .ok bs

variable {M U P names full}

theorem buildAll_append (as bs : List RTree) :
    buildAll (P := P) names full (as ++ bs) =
      (match buildAll names full as with
       | .error e => .error e
       | .ok xs => match buildAll names full bs with
         | .error e => .error e
         | .ok ys => .ok (xs ++ ys)) := by
  induction as with
  | nil =>
    simp only [List.nil_append, buildAll]
    cases buildAll (P := P) names full bs <;> rfl
  | cons a as ih =>
    simp only [List.cons_append, buildAll, ih]
    cases build (P := P) names full a with
    | error e => rfl
    | ok b =>
      cases buildAll (P := P) names full as with
      | error e => rfl
      | ok xs => cases buildAll (P := P) names full bs <;> rfl

theorem buildAll_append_ok {as bs : List RTree} {xs ys : List (Built P)}
    (h : buildAll names full as = .ok xs) (h' : buildAll names full bs = .ok ys) :
    buildAll names full (as ++ bs) = .ok (xs ++ ys) := by
  rw [buildAll_append, h, h']

theorem buildAll_length : ∀ {rs : List RTree} {bs : List (Built P)},
    buildAll names full rs = .ok bs → bs.length = rs.length
  | [], bs, h => by
    simp only [buildAll, Except.ok.injEq] at h
    rw [← h]; rfl
  | r :: rs, bs, h => by
    simp only [buildAll] at h
    split at h
    · split at h
      · rename_i h2
        cases h
        simp [buildAll_length h2]
      · cases h
    · cases h

/-- Texts of trees, consumed by a match. -/
theorem Yields.text_eq {p : Peg NT} {x rest : Str} {t : PTree NT}
    (h : Yields (rule M U) p (x ++ rest) t rest) : t.text = x := by
  have := h.whole
  exact List.append_cancel_right this

variable {k : Nat}

theorem Builds.lit (l rest : Str) : Builds M U P names full k (.lit l) l rest [] :=
  ⟨_, Yields.lit l rest, by simp [rewrite, rewrites, buildAll]⟩

theorem Builds.rx {r : RE} {x rest : Str} (h : r.match? (x ++ rest) = some rest) :
    Builds M U P names full k (.rx r) x rest [] :=
  ⟨_, Yields.rx h, by simp [rewrite, rewrites, buildAll]⟩

theorem Builds.seq {ps : List (Peg NT)} {x rest : Str} {bs : List (Built P)}
    (h : BuildsSeq M U P names full k ps x rest bs) : Builds M U P names full k (.seq ps) x rest bs := by
  obtain ⟨ts, h1, h2⟩ := h
  exact ⟨_, .seq h1, by simpa [rewrite] using h2⟩

theorem BuildsSeq.nil (rest : Str) : BuildsSeq M U P names full k [] [] rest [] :=
  ⟨[], .nil _, by simp [rewrites, buildAll]⟩

theorem BuildsSeq.cons {p : Peg NT} {ps : List (Peg NT)} {x y z rest : Str} {bs cs : List (Built P)}
    (h : Builds M U P names full k p x (y ++ rest) bs)
    (h' : BuildsSeq M U P names full (k + x.length) ps y rest cs) (hz : z = x ++ y := by rfl) :
    BuildsSeq M U P names full k (p :: ps) z rest (bs ++ cs) := by
  subst hz
  obtain ⟨t, h1, h2⟩ := h
  obtain ⟨ts, h3, h4⟩ := h'
  refine ⟨t :: ts, by rw [List.append_assoc]; exact .cons h1 h3, ?_⟩
  simp only [rewrites]
  rw [h1.text_eq]
  exact buildAll_append_ok h2 h4

theorem Builds.alt {ps : List (Peg NT)} {x rest : Str} {bs : List (Built P)}
    (h : BuildsAlt M U P names full k ps x rest bs) : Builds M U P names full k (.alt ps) x rest bs := by
  obtain ⟨t, h1, h2⟩ := h
  exact ⟨_, .alt h1, by simp only [rewrite, rewrites, List.append_nil]; exact h2⟩

theorem BuildsAlt.here {p : Peg NT} {ps : List (Peg NT)} {x rest : Str} {bs : List (Built P)}
    (h : Builds M U P names full k p x rest bs) : BuildsAlt M U P names full k (p :: ps) x rest bs := by
  obtain ⟨t, h1, h2⟩ := h
  exact ⟨t, .here h1, h2⟩

theorem BuildsAlt.there {p : Peg NT} {ps : List (Peg NT)} {x rest : Str} {bs : List (Built P)}
    (hf : Fails (rule M U) p (x ++ rest)) (h : BuildsAlt M U P names full k ps x rest bs) :
    BuildsAlt M U P names full k (p :: ps) x rest bs := by
  obtain ⟨t, h1, h2⟩ := h
  exact ⟨t, .there hf h1, h2⟩

theorem Builds.opt_some {p : Peg NT} {x rest : Str} {bs : List (Built P)}
    (h : Builds M U P names full k p x rest bs) : Builds M U P names full k (.opt p) x rest bs := by
  obtain ⟨t, h1, h2⟩ := h
  exact ⟨_, .opt_some h1, by simp only [rewrite, rewrites, List.append_nil]; exact h2⟩

theorem Builds.opt_none {p : Peg NT} {rest : Str} (h : Fails (rule M U) p rest) :
    Builds M U P names full k (.opt p) [] rest [] :=
  ⟨_, .opt_none h, by simp [rewrite, rewrites, buildAll]⟩

theorem Builds.not {p : Peg NT} {rest : Str} (h : Fails (rule M U) p rest) :
    Builds M U P names full k (.not p) [] rest [] :=
  ⟨_, .not h, by simp [rewrite, rewrites, buildAll]⟩

theorem Builds.star {p : Peg NT} {x rest : Str} {bs : List (Built P)}
    (h : BuildsStar M U P names full k p x rest bs) : Builds M U P names full k (.star p) x rest bs := by
  obtain ⟨ts, h1, h2⟩ := h
  exact ⟨_, .star h1, by simpa [rewrite] using h2⟩

theorem BuildsStar.nil {p : Peg NT} {rest : Str} (h : Fails (rule M U) p rest) :
    BuildsStar M U P names full k p [] rest [] :=
  ⟨[], .nil h, by simp [rewrites, buildAll]⟩

theorem BuildsStar.cons {p : Peg NT} {x y z rest : Str} {bs cs : List (Built P)}
    (h : Builds M U P names full k p x (y ++ rest) bs) (hx : x ≠ [])
    (h' : BuildsStar M U P names full (k + x.length) p y rest cs) (hz : z = x ++ y := by rfl) :
    BuildsStar M U P names full k p z rest (bs ++ cs) := by
  subst hz
  obtain ⟨t, h1, h2⟩ := h
  obtain ⟨ts, h3, h4⟩ := h'
  refine ⟨t :: ts, ?_, ?_⟩
  · rw [List.append_assoc]
    refine .cons h1 ?_ h3
    have := List.length_pos_iff.2 hx
    simp only [List.length_append]
    omega
  · simp only [rewrites]
    rw [h1.text_eq]
    exact buildAll_append_ok h2 h4

theorem BuildsMore.nil {p : Peg NT} {rest : Str} (h : Fails (rule M U) p rest) :
    BuildsMore M U P names full k p [] rest [] :=
  ⟨[], .nil h, by simp [rewrites, buildAll]⟩

theorem BuildsMore.cons {p : Peg NT} {x y z rest : Str} {bs cs : List (Built P)}
    (h : Builds M U P names full k p x (y ++ rest) bs) (hx : x ≠ [])
    (h' : BuildsMore M U P names full (k + x.length) p y rest cs) (hz : z = x ++ y := by rfl) :
    BuildsMore M U P names full k p z rest (bs ++ cs) := by
  subst hz
  obtain ⟨t, h1, h2⟩ := h
  obtain ⟨ts, h3, h4⟩ := h'
  refine ⟨t :: ts, ?_, ?_⟩
  · rw [List.append_assoc]
    refine .cons h1 ?_ h3
    have := List.length_pos_iff.2 hx
    simp only [List.length_append]
    omega
  · simp only [rewrites]
    rw [h1.text_eq]
    exact buildAll_append_ok h2 h4

theorem Builds.plus {p : Peg NT} {x y z rest : Str} {bs cs : List (Built P)}
    (h : Builds M U P names full k p x (y ++ rest) bs) (hx : x ≠ [])
    (h' : BuildsMore M U P names full (k + x.length) p y rest cs) (hz : z = x ++ y := by rfl) :
    Builds M U P names full k (.plus p) z rest (bs ++ cs) := by
  subst hz
  obtain ⟨t, h1, h2⟩ := h
  obtain ⟨ts, h3, h4⟩ := h'
  refine ⟨.node none (consumed (x ++ (y ++ rest)) rest) (t :: ts), ?_, ?_⟩
  · rw [List.append_assoc]
    refine .plus h1 ?_ h3
    have := List.length_pos_iff.2 hx
    simp only [List.length_append]
    omega
  · simp only [rewrite, rewrites]
    rw [h1.text_eq]
    exact buildAll_append_ok h2 h4

/-- The expression is not a mere reference to another rule. -/
def Peg.isRef {N : Type} : Peg N → Bool
  | .ref _ => true
  | _ => false

theorem rule_not_ref (n : NT) : (rule M U n).isRef = false := by cases n <;> rfl

/-- The node of an expression that is not a reference is unnamed. -/
theorem Yields.unnamed {N : Type} {G : N → Peg N} {p : Peg N} {s rest : Str} {t : PTree N}
    (hp : p.isRef = false) (h : Yields G p s t rest) : ∃ cs, t = .node none t.text cs := by
  obtain ⟨f, h⟩ := h
  cases f with
  | zero => simp [run] at h
  | succ f =>
    cases p with
    | lit l =>
      simp only [run, runLit] at h
      split at h
      · simp only [PRes.ok.injEq, anon] at h; rw [← h.1]; exact ⟨_, rfl⟩
      · cases h
    | rx r =>
      simp only [run, runRx] at h
      split at h
      · simp only [PRes.ok.injEq, anon] at h; rw [← h.1]; exact ⟨_, rfl⟩
      · cases h
    | ref n => simp [Peg.isRef] at hp
    | seq ps =>
      simp only [run] at h
      cases hr : runSeq G f ps s <;> rw [hr] at h <;> simp only [wrapMany, PRes.ok.injEq, anon, reduceCtorEq] at h
      rw [← h.1]; exact ⟨_, rfl⟩
    | alt ps =>
      simp only [run] at h
      cases hr : runAlt G f ps s <;> rw [hr] at h <;> simp only [wrapOne, PRes.ok.injEq, anon, reduceCtorEq] at h
      rw [← h.1]; exact ⟨_, rfl⟩
    | opt p =>
      simp only [run] at h
      cases hr : run G f p s <;> rw [hr] at h <;> simp only [wrapOpt, PRes.ok.injEq, anon, reduceCtorEq] at h
      all_goals rw [← h.1]; exact ⟨_, rfl⟩
    | star p =>
      simp only [run] at h
      cases hr : runStar G f p s <;> rw [hr] at h <;> simp only [wrapMany, PRes.ok.injEq, anon, reduceCtorEq] at h
      rw [← h.1]; exact ⟨_, rfl⟩
    | plus p =>
      simp only [run] at h
      cases hr : runPlus G f p s <;> rw [hr] at h <;> simp only [wrapMany, PRes.ok.injEq, anon, reduceCtorEq] at h
      rw [← h.1]; exact ⟨_, rfl⟩
    | not p =>
      simp only [run] at h
      cases hr : run G f p s <;> rw [hr] at h <;> simp only [wrapNot, PRes.ok.injEq, anon, reduceCtorEq] at h
      rw [← h.1]; exact ⟨_, rfl⟩

theorem rewrite_some (k : Nat) (n : NT) (t : Str) (cs : List (PTree NT)) :
    rewrite k (.node (some n) t cs) =
      if isIgnored n then []
      else if isReduced n then (if cs = [] ∧ t ≠ [] then [.str k t] else rewrites k cs)
      else [compactNode n k t (rewrites k cs)] := by
  cases cs with
  | nil => simp only [rewrite, rewrites]; by_cases h : t = [] <;> simp [h]
  | cons c cs => simp [rewrite, rewrites]

theorem Builds.ignored {n : NT} {x rest : Str} {t : PTree NT} (hi : isIgnored n = true)
    (h : Yields (rule M U) (rule M U n) (x ++ rest) t rest) :
    Builds M U P names full k (.ref n) x rest [] := by
  refine ⟨_, .ref h, ?_⟩
  obtain ⟨m, tx, cs⟩ := t
  simp [PTree.rename, rewrite_some, hi, buildAll]

/-- Expressions whose nodes have children. -/
def Peg.inner {N : Type} : Peg N → Bool
  | .seq (_ :: _) => true
  | .alt _ => true
  | .plus _ => true
  | _ => false

theorem Yields.inner {N : Type} {G : N → Peg N} {p : Peg N} {s rest : Str} {t : PTree N}
    (hp : p.inner = true) (h : Yields G p s t rest) : ∃ c cs, t = .node none t.text (c :: cs) := by
  obtain ⟨f, h⟩ := h
  cases f with
  | zero => simp [run] at h
  | succ f =>
    cases p with
    | lit l => simp [Peg.inner] at hp
    | rx r => simp [Peg.inner] at hp
    | ref n => simp [Peg.inner] at hp
    | opt p => simp [Peg.inner] at hp
    | star p => simp [Peg.inner] at hp
    | not p => simp [Peg.inner] at hp
    | seq ps =>
      cases ps with
      | nil => simp [Peg.inner] at hp
      | cons p ps =>
        simp only [run] at h
        cases hr : runSeq G f (p :: ps) s <;> rw [hr] at h <;>
          simp only [wrapMany, PRes.ok.injEq, anon, reduceCtorEq] at h
        cases f with
        | zero => simp [runSeq] at hr
        | succ f =>
          simp only [runSeq] at hr
          cases hr1 : run G f p s <;> rw [hr1] at hr <;> simp only [reduceCtorEq] at hr
          rename_i t1 r1
          cases hr2 : runSeq G f ps r1 <;> rw [hr2] at hr <;> simp only [PRes.map, reduceCtorEq, PRes.ok.injEq] at hr
          rw [← h.1, ← hr.1]; exact ⟨_, _, rfl⟩
    | alt ps =>
      simp only [run] at h
      cases hr : runAlt G f ps s <;> rw [hr] at h <;> simp only [wrapOne, PRes.ok.injEq, anon, reduceCtorEq] at h
      rw [← h.1]; exact ⟨_, _, rfl⟩
    | plus p =>
      simp only [run] at h
      cases hr : runPlus G f p s <;> rw [hr] at h <;> simp only [wrapMany, PRes.ok.injEq, anon, reduceCtorEq] at h
      cases f with
      | zero => simp [runPlus] at hr
      | succ f =>
        simp only [runPlus] at hr
        cases hr1 : run G f p s <;> rw [hr1] at hr <;> simp only [reduceCtorEq] at hr
        rename_i t1 r1
        split at hr
        · simp only [PRes.ok.injEq] at hr
          rw [← h.1, ← hr.1]; exact ⟨_, _, rfl⟩
        · cases hr2 : runMore G f p r1 <;> rw [hr2] at hr <;> simp only [PRes.map, reduceCtorEq, PRes.ok.injEq] at hr
          rw [← h.1, ← hr.1]; exact ⟨_, _, rfl⟩

theorem reduced_inner {n : NT} (h : isReduced n = true) : (rule M U n).inner = true := by
  cases n <;> first | rfl | (simp [isReduced] at h)

theorem reduced_not_ignored {n : NT} (h : isReduced n = true) : isIgnored n = false := by
  cases n <;> first | rfl | (simp [isReduced] at h)

theorem compact_plain {n : NT} (h : isCompact n = true) : isIgnored n = false ∧ isReduced n = false := by
  cases n <;> first | exact ⟨rfl, rfl⟩ | (simp [isCompact] at h)

theorem Builds.reduced {n : NT} {x rest : Str} {bs : List (Built P)} (hn : isReduced n = true)
    (h : Builds M U P names full k (rule M U n) x rest bs) :
    Builds M U P names full k (.ref n) x rest bs := by
  obtain ⟨t, h1, h2⟩ := h
  refine ⟨_, .ref h1, ?_⟩
  obtain ⟨c, cs, ht⟩ := h1.inner (reduced_inner hn)
  rw [ht] at h2 ⊢
  simp only [rewrite] at h2
  simp only [PTree.rename, rewrite_some, hn, reduced_not_ignored hn, if_true, Bool.false_eq_true, if_false,
    reduceCtorEq, false_and]
  exact h2

theorem Builds.plain {n : NT} {x rest : Str} {bs : List (Built P)} {b : Built P}
    (h : Builds M U P names full k (rule M U n) x rest bs)
    (hb : setup names full n k x (attachQuals bs) = .ok b)
    (hi : isIgnored n = false := by rfl) (hr : isReduced n = false := by rfl)
    (hc : isCompact n = false := by rfl) :
    Builds M U P names full k (.ref n) x rest [b] := by
  obtain ⟨t, h1, h2⟩ := h
  refine ⟨_, .ref h1, ?_⟩
  obtain ⟨cs, ht⟩ := h1.unnamed (rule_not_ref n)
  rw [h1.text_eq] at ht
  subst ht
  simp only [rewrite] at h2
  simp only [PTree.rename, rewrite_some, hi, hr, Bool.false_eq_true, if_false, compactNode, hc, buildAll, build,
    h2, hb]

theorem Builds.single {n : NT} {x rest : Str} {b : Built P} (hn : isCompact n = true)
    (h : Builds M U P names full k (rule M U n) x rest [b]) :
    Builds M U P names full k (.ref n) x rest [b] := by
  obtain ⟨t, h1, h2⟩ := h
  refine ⟨_, .ref h1, ?_⟩
  obtain ⟨cs, ht⟩ := h1.unnamed (rule_not_ref n)
  rw [ht] at h2 ⊢
  obtain ⟨hi, hr⟩ := compact_plain hn
  have hl := buildAll_length h2
  simp only [rewrite] at h2 hl
  simp only [PTree.rename, rewrite_some, hi, hr, Bool.false_eq_true, if_false, compactNode, hn, if_true]
  cases hrs : rewrites k cs with
  | nil => rw [hrs] at hl; simp at hl
  | cons r rs =>
    cases rs with
    | nil => rw [hrs] at h2; exact h2
    | cons r' rs => rw [hrs] at hl; simp at hl

theorem Builds.several {n : NT} {x rest : Str} {bs : List (Built P)} {b : Built P}
    (hn : isCompact n = true) (h : Builds M U P names full k (rule M U n) x rest bs)
    (hl : bs.length ≠ 1) (hb : setup names full n k x (attachQuals bs) = .ok b) :
    Builds M U P names full k (.ref n) x rest [b] := by
  obtain ⟨t, h1, h2⟩ := h
  refine ⟨_, .ref h1, ?_⟩
  obtain ⟨cs, ht⟩ := h1.unnamed (rule_not_ref n)
  rw [h1.text_eq] at ht
  subst ht
  obtain ⟨hi, hr⟩ := compact_plain hn
  rw [buildAll_length h2] at hl
  simp only [rewrite] at h2 hl
  simp only [PTree.rename, rewrite_some, hi, hr, Bool.false_eq_true, if_false, compactNode, hn, if_true]
  cases hrs : rewrites k cs with
  | nil =>
    rw [hrs] at h2
    simp only [buildAll, Except.ok.injEq] at h2
    subst h2
    simp only [buildAll, build, hb]
  | cons r rs =>
    cases rs with
    | nil => rw [hrs] at hl; simp at hl
    | cons r' rs => rw [hrs] at h2; simp only [buildAll, build] at h2 ⊢; simp only [h2, hb]

/-- The whole document. -/
theorem Builds.load {script : Str} {ss : List (Stmt P)} (hp : preprocess M script = .ok full)
    (h : Builds M U P names full 0 (.ref .document) full [] [.document ss]) :
    loadScript M U names script = .ok ss := by
  obtain ⟨t, h1, h2⟩ := h
  have hparse : parse M U full = .ok t := by
    obtain ⟨f, h1⟩ := h1
    rw [List.append_nil] at h1
    rw [parse]
    have hne : run (rule M U) (parseFuel full.length) (.ref .document) full ≠ .timeout := by
      refine ((rule_noLeftRec M U).run_result (parseFuel full.length) full.length 25 1 ?_).1
        (.ref .document) full (Nat.le_refl _) (Peg.leftBelow_top rankRule_lt _) (Nat.le_refl _)
      simp [parseFuel, fuelFor]
    have ha := run_mono (rule M U) (Nat.le_max_left f (parseFuel full.length)) h1 (by simp)
    have hb := run_mono (rule M U) (Nat.le_max_right f (parseFuel full.length)) rfl hne
    rw [ha] at hb
    rw [← hb]
  simp only [loadScript, hp, hparse, h2]

end
end Verif
