import Verif.Lemmas.JoiningRules

/-! What follows a text does not influence how the text is matched: all expressions. -/

namespace Verif
open Py Spec

section
variable {M : Marks} {U : Uni} {t : Str}

local notation "Gr" => rule M U

theorem consumed_append_both {a r : Str} (h : r <:+ a) (s : Str) :
    consumed (a ++ s) (r ++ s) = consumed a r := by
  obtain ⟨u, rfl⟩ := h
  rw [List.append_assoc, consumed_of_append, consumed_of_append]

theorem anon_append_both {a r : Str} (h : r <:+ a) (s : Str) (cs : List (PTree NT)) :
    anon (a ++ s) (r ++ s) cs = anon a r cs := by
  simp only [anon, consumed_append_both h]

/-- An empty match ends a repetition. -/
theorem YieldsStar.empty {p : Peg NT} {s m : Str} {c : PTree NT} (h : Yields Gr p s c m)
    (he : m.length = s.length) : YieldsStar Gr p s [] s := by
  obtain ⟨f, h⟩ := h
  exact ⟨f + 1, by simp [runStar, h, he]⟩

theorem YieldsMore.empty {p : Peg NT} {s m : Str} {c : PTree NT} (h : Yields Gr p s c m)
    (he : m.length = s.length) : YieldsMore Gr p s [c] s := by
  obtain ⟨f, h⟩ := h
  exact ⟨f + 1, by simp [runMore, h, he]⟩

theorem Yields.plus_empty {p : Peg NT} {s m : Str} {c : PTree NT} (h : Yields Gr p s c m)
    (he : m.length = s.length) : Yields Gr (.plus p) s (.node none (consumed s s) [c]) s := by
  obtain ⟨f, h⟩ := h
  exact ⟨f + 2, by simp [run, runPlus, h, he, wrapMany, anon]⟩

variable (M U t) in
/-- The result for `a` determines the result for `a ++ '\n' :: t`. -/
def Carries {α : Type} (a : Str) (ok : Str → α → Str → Prop) (fail : Str → Prop) : PRes α → Prop
  | .ok c r => r <:+ a ∧ net M r = net M a ∧ ok (a ++ '\n' :: t) c (r ++ '\n' :: t)
  | .fail => fail (a ++ '\n' :: t)
  | .timeout => True

theorem Carries.ok_iff {α : Type} {a : Str} {ok : Str → α → Str → Prop} {fail : Str → Prop} {r : PRes α} {c : α}
    {x : Str} (h : Carries M t a ok fail r) (e : r = .ok c x) :
    x <:+ a ∧ net M x = net M a ∧ ok (a ++ '\n' :: t) c (x ++ '\n' :: t) := by
  rw [e] at h; exact h

theorem Carries.fail_iff {α : Type} {a : Str} {ok : Str → α → Str → Prop} {fail : Str → Prop} {r : PRes α}
    (h : Carries M t a ok fail r) (e : r = .fail) : fail (a ++ '\n' :: t) := by
  rw [e] at h; exact h

variable [hM : MarksApart M U]

omit hM in
theorem carries_lit {a s : Str} (h : LitOk M s) :
    Carries M t a (Yields Gr (.lit s)) (Fails Gr (.lit s)) (runLit s a) := by
  unfold runLit
  have hp : s <+: a ++ '\n' :: t ↔ s <+: a := prefix_append_iff (fun c hc => (h c hc).1)
  by_cases hs : s.isPrefixOf a = true
  · rw [if_pos hs]
    obtain ⟨r, rfl⟩ := List.isPrefixOf_iff_prefix.1 hs
    simp only [List.drop_left]
    refine ⟨⟨s, rfl⟩, (net_append_of_not_mark (fun c hc => (h c hc).2) r).symm, ?_⟩
    simp only [anon, consumed_of_append, List.append_assoc]
    exact Yields.lit s (r ++ '\n' :: t)
  · rw [if_neg hs]
    refine Fails.lit ?_
    rw [← Bool.not_eq_true]
    intro hx
    exact hs (List.isPrefixOf_iff_prefix.2 (hp.1 (List.isPrefixOf_iff_prefix.1 hx)))

omit hM in
theorem carries_rx {l : Need} {a : Str} {r : RE} (h : RxOk M t l r) (hf : Joinable M t a) (hl : l.Met M a) :
    Carries M t a (Yields Gr (.rx r)) (Fails Gr (.rx r)) (runRx r a) := by
  obtain ⟨h1, h2⟩ := h a hf hl
  unfold runRx
  cases hr : r.match? a with
  | none =>
    rw [hr] at h1
    exact Fails.rx h1
  | some x =>
    rw [hr] at h1
    have hs := RE.match?_suffix hr
    refine ⟨hs, h2 x hr, ?_⟩
    simp only [anon, ← consumed_append_both hs ('\n' :: t)]
    exact Yields.rx h1

omit hM in
/-- Opening and closing marks, and a rule between them. -/
theorem carries_group {n : NT} {io ic : NT} {o c : Char} (ho : Gr io = .lit [o]) (hc : Gr ic = .lit [c])
    (hon : o ≠ '\n')
    (hno : ∀ s, net M (o :: s) = net M s - 1) (hnc : ∀ s, net M (c :: s) = net M s + 1)
    {f : Nat} {a : Str} (hf : Joinable M t a)
    (ih : ∀ f' < f, ∀ a', Joinable M t a' → 1 ≤ net M a' →
      Carries M t a' (Yields Gr (.ref n)) (Fails Gr (.ref n)) (run Gr f' (.ref n) a')) :
    Carries M t a (YieldsSeq Gr [.ref io, .ref n, .ref ic]) (FailsSeq Gr [.ref io, .ref n, .ref ic])
      (runSeq Gr f [.ref io, .ref n, .ref ic] a) := by
  have lit1 : ∀ (d : Char) (i : NT), Gr i = .lit [d] → ∀ s, Yields Gr (.ref i) (d :: s) (.node (some i) [d] []) s := by
    intro d i hi s
    have := Yields.ref (G := Gr) (n := i) (t := .node none [d] []) (rest := s) (s := d :: s)
      (by rw [hi]; exact Yields.lit [d] s)
    exact this
  have lit2 : ∀ (d : Char) (i : NT), Gr i = .lit [d] → ∀ s : Str, s.head? ≠ some d → Fails Gr (.ref i) s := by
    intro d i hi s hs
    refine .ref ?_
    rw [hi]
    refine .lit ?_
    cases s with
    | nil => rfl
    | cons e s =>
      simp only [List.head?_cons, ne_eq, Option.some.injEq] at hs
      simp [List.isPrefixOf, Ne.symm hs]
  cases f with
  | zero => exact trivial
  | succ f =>
    simp only [runSeq]
    cases hr : run Gr f (.ref io) a with
    | timeout => exact trivial
    | fail =>
      refine FailsSeq.head (lit2 o io ho _ ?_)
      cases a with
      | nil => simpa using Ne.symm hon
      | cons e a =>
        simp only [List.cons_append, List.head?_cons, ne_eq, Option.some.injEq]
        rintro rfl
        exact (lit1 e io ho a).not_fails ⟨f, hr⟩
    | ok c1 r1 =>
      have hy : Yields Gr (.ref io) a c1 r1 := ⟨f, hr⟩
      have ha : ∃ a', a = o :: a' := by
        cases a with
        | nil => exact (hy.not_fails (lit2 o io ho [] (by simp))).elim
        | cons e a =>
          by_cases he : e = o
          · exact ⟨a, by rw [he]⟩
          · exact (hy.not_fails (lit2 o io ho (e :: a) (by simpa using he))).elim
      obtain ⟨a', rfl⟩ := ha
      obtain ⟨rfl, rfl⟩ := hy.unique (lit1 o io ho a')
      have hfa : Joinable M t r1 := hf.suffix ⟨[o], rfl⟩
      have hna : 1 ≤ net M r1 := by
        have := hf.net _ (List.suffix_refl _)
        rw [hno] at this
        omega
      cases f with
      | zero => exact trivial
      | succ f =>
        simp only [runSeq]
        have ih' := ih f (by omega) r1 hfa hna
        cases hr2 : run Gr f (.ref n) r1 with
        | timeout => exact trivial
        | fail => exact FailsSeq.tail (lit1 o io ho _) (FailsSeq.head (ih'.fail_iff hr2))
        | ok c2 r2 =>
          obtain ⟨hs2, hn2, hy2⟩ := ih'.ok_iff hr2
          cases f with
          | zero => exact trivial
          | succ f =>
            simp only [runSeq]
            cases r2 with
            | nil => rw [← hn2] at hna; simp [net] at hna
            | cons e r2 =>
              cases hr3 : run Gr f (.ref ic) (e :: r2) with
              | timeout => exact trivial
              | fail =>
                refine FailsSeq.tail (lit1 o io ho _) (FailsSeq.tail hy2 (FailsSeq.head (lit2 c ic hc _ ?_)))
                simp only [List.cons_append, List.head?_cons, ne_eq, Option.some.injEq]
                rintro rfl
                exact (lit1 e ic hc r2).not_fails ⟨f, hr3⟩
              | ok c3 r3 =>
                have hy3 : Yields Gr (.ref ic) (e :: r2) c3 r3 := ⟨f, hr3⟩
                by_cases he : e = c
                · subst he
                  obtain ⟨rfl, rfl⟩ := hy3.unique (lit1 e ic hc r2)
                  cases f with
                  | zero => exact trivial
                  | succ f =>
                    refine ⟨?_, ?_, ?_⟩
                    · exact List.IsSuffix.trans ⟨[e], rfl⟩ (hs2.trans ⟨[o], rfl⟩)
                    · rw [hno, ← hn2, hnc]
                      omega
                    · exact .cons (lit1 o io ho _) (.cons hy2 (.cons (lit1 e ic hc _) (.nil _)))
                · exact (hy3.not_fails (lit2 c ic hc _ (by simpa using he))).elim

section
variable (U) (hsp : ∀ c, isMark M c = true → isSpace c = false) (hT : Ending t)
include hM hsp hT

omit hM hsp hT in
theorem nl_rest (s : Str) : ∃ c, Yields Gr (.ref .nl) ('\n' :: s) c (s.dropWhile (· == '\n')) := by
  refine ⟨_, .ref (.rx ?_)⟩
  simp only [RE.match?, reNl, RE.many1, RE.rests, beq_self_eq_true, if_true, List.flatMap_cons, List.flatMap_nil,
    List.append_nil]
  exact manyRests_head _ s

omit hM hsp in
/-- The clauses of this text do not begin in the next one. -/
theorem clause_fails {w : Str} (hw : w = s!!"else" ∨ w = s!!"elif") (ps : List (Peg NT)) :
    FailsSeq Gr (.ref .nl :: .lit w :: ps) ('\n' :: t) := by
  obtain ⟨c, hc⟩ := nl_rest (M := M) U t
  refine .tail hc (.head (.lit ?_))
  rw [← Bool.not_eq_true, List.isPrefixOf_iff_prefix]
  rcases hw with rfl | rfl
  · exact hT.notElse
  · exact hT.notElif

theorem run_carries (f : Nat) :
    (∀ l p a, Joinable M t a → l.Met M a → Steady M t l p →
      Carries M t a (Yields Gr p) (Fails Gr p) (run Gr f p a)) ∧
    (∀ l ps a, Joinable M t a → l.Met M a → SteadySeq M t l ps →
      Carries M t a (YieldsSeq Gr ps) (FailsSeq Gr ps) (runSeq Gr f ps a)) ∧
    (∀ l ps a, Joinable M t a → l.Met M a → SteadyAll M t l ps →
      Carries M t a (YieldsAlt Gr ps) (FailsAlt Gr ps) (runAlt Gr f ps a)) ∧
    (∀ l p a, Joinable M t a → l.Met M a → Steady M t l p → Steady M t l.next p →
      Carries M t a (YieldsStar Gr p) (fun _ => False) (runStar Gr f p a)) ∧
    (∀ l p a, Joinable M t a → l.Met M a → Steady M t l p → Steady M t l.next p →
      Carries M t a (fun s cs r => Yields Gr (.plus p) s (.node none (consumed s r) cs) r) (Fails Gr (.plus p))
        (runPlus Gr f p a)) ∧
    (∀ l p a, Joinable M t a → l.Met M a → Steady M t l p → Steady M t l.next p →
      Carries M t a (YieldsMore Gr p) (fun _ => False) (runMore Gr f p a)) := by
  have nextnext : ∀ l : Need, l.next.next = l.next := by intro l; cases l <;> rfl
  have hne : ∀ c, isMark M c = true → c ≠ '\n' := by
    rintro c hc rfl
    have := hM.high _ hc
    revert this
    decide
  have hd := hM.distinct
  simp only [Marks.Distinct, List.nodup_cons, List.mem_cons, List.not_mem_nil, or_false, not_or, not_false_eq_true,
    and_true, List.nodup_nil] at hd
  obtain ⟨⟨d1, _, d2⟩, ⟨d3', _⟩, d4⟩ := hd
  have d3 : M.indentT ≠ M.dedentS := Ne.symm d3'
  induction f using Nat.strongRecOn with
  | _ f IH =>
  cases f with
  | zero =>
    refine ⟨?_, ?_, ?_, ?_, ?_, ?_⟩ <;> intros <;> exact trivial
  | succ f =>
    obtain ⟨ih1, ih2, ih3, ih4, ih5, ih6⟩ := IH f (by omega)
    refine ⟨?_, ?_, ?_, ?_, ?_, ?_⟩
    · intro l p a hf hl hp
      have wrapSeq : ∀ {ps : List (Peg NT)},
          Carries M t a (YieldsSeq Gr ps) (FailsSeq Gr ps) (runSeq Gr f ps a) →
          Carries M t a (Yields Gr (.seq ps)) (Fails Gr (.seq ps)) (wrapMany a (runSeq Gr f ps a)) := by
        intro ps h
        cases hr : runSeq Gr f ps a with
        | timeout => exact trivial
        | fail => exact .seq (h.fail_iff hr)
        | ok cs r =>
          obtain ⟨h1, h2, h3⟩ := h.ok_iff hr
          refine ⟨h1, h2, ?_⟩
          rw [← anon_append_both h1]
          exact .seq h3
      cases hp with
      | lit h => exact carries_lit h
      | rx h => exact carries_rx h hf hl
      | @ref l m n hn hle =>
        simp only [run]
        have h := ih1 m (rule M U n) a hf (hl.mono hle) (rules_steady U hsp hn)
        cases hr : run Gr f (rule M U n) a with
        | timeout => exact trivial
        | fail => exact .ref (h.fail_iff hr)
        | ok c r =>
          obtain ⟨h1, h2, h3⟩ := h.ok_iff hr
          exact ⟨h1, h2, .ref h3⟩
      | seq h => exact wrapSeq (ih2 l _ a hf hl h)
      | @spaces l m n hn =>
        refine wrapSeq (carries_group rfl rfl (hne _ (by simp [isMark])) (fun s => ?_) (fun s => ?_) hf
          (fun f' hf' a' hfa hna => (IH f' (by omega)).1 .group _ a' hfa hna (.ref hn (by cases m <;> rfl))))
        · simp only [net, d1, d2, or_self, true_or, if_true, if_false]
          omega
        · simp only [net, true_or, if_true]
      | @tabs l m n hn =>
        refine wrapSeq (carries_group rfl rfl (hne _ (by simp [isMark])) (fun s => ?_) (fun s => ?_) hf
          (fun f' hf' a' hfa hna => (IH f' (by omega)).1 .group _ a' hfa hna (.ref hn (by cases m <;> rfl))))
        · simp only [net, d3, d4, or_self, or_true, if_true, if_false]
          omega
        · simp only [net, or_true, if_true]
      | clause hw hs =>
        refine wrapSeq ?_
        by_cases ha : a = []
        · subst ha
          cases f with
          | zero => exact trivial
          | succ f =>
            simp only [runSeq]
            cases hr : run Gr f (.ref .nl) [] with
            | timeout => exact trivial
            | fail => exact clause_fails U hT hw _
            | ok c r =>
              exfalso
              have : Fails Gr (.ref .nl) [] := .ref (.rx rfl)
              exact Yields.not_fails ⟨f, hr⟩ this
        · refine ih2 .char _ a hf ha (.cons (.ref rfl rfl) (.cons (.lit (lowChar.lit U ?_)) hs))
          rcases hw with rfl | rfl <;> rfl
      | alt h =>
        have h := ih3 l _ a hf hl h
        simp only [run]
        cases hr : runAlt Gr f _ a with
        | timeout => exact trivial
        | fail => exact .alt (h.fail_iff hr)
        | ok c r =>
          obtain ⟨h1, h2, h3⟩ := h.ok_iff hr
          refine ⟨h1, h2, ?_⟩
          rw [← anon_append_both h1]
          exact .alt h3
      | opt h =>
        have h := ih1 l _ a hf hl h
        simp only [run]
        cases hr : run Gr f _ a with
        | timeout => exact trivial
        | fail =>
          refine ⟨List.suffix_refl _, rfl, ?_⟩
          rw [anon, consumed_self]
          exact .opt_none (h.fail_iff hr)
        | ok c r =>
          obtain ⟨h1, h2, h3⟩ := h.ok_iff hr
          refine ⟨h1, h2, ?_⟩
          rw [← anon_append_both h1]
          exact .opt_some h3
      | star h h' =>
        have h := ih4 l _ a hf hl h h'
        simp only [run]
        cases hr : runStar Gr f _ a with
        | timeout => exact trivial
        | fail => exact (h.fail_iff hr).elim
        | ok c r =>
          obtain ⟨h1, h2, h3⟩ := h.ok_iff hr
          refine ⟨h1, h2, ?_⟩
          rw [← anon_append_both h1]
          exact .star h3
      | plus h h' =>
        have h := ih5 l _ a hf hl h h'
        simp only [run]
        cases hr : runPlus Gr f _ a with
        | timeout => exact trivial
        | fail => exact h.fail_iff hr
        | ok c r =>
          obtain ⟨h1, h2, h3⟩ := h.ok_iff hr
          refine ⟨h1, h2, ?_⟩
          rw [← anon_append_both h1]
          exact h3
      | not h =>
        have h := ih1 l _ a hf hl h
        simp only [run]
        cases hr : run Gr f _ a with
        | timeout => exact trivial
        | fail =>
          refine ⟨List.suffix_refl _, rfl, ?_⟩
          rw [anon, consumed_self]
          exact .not (h.fail_iff hr)
        | ok c r => exact .not (h.ok_iff hr).2.2
    · intro l ps a hf hl hp
      cases hp with
      | nil => exact ⟨List.suffix_refl _, rfl, .nil _⟩
      | @cons l p ps h h' =>
        have h := ih1 l p a hf hl h
        simp only [runSeq]
        cases hr : run Gr f p a with
        | timeout => exact trivial
        | fail => exact .head (h.fail_iff hr)
        | ok c r =>
          obtain ⟨h1, h2, h3⟩ := h.ok_iff hr
          have h' := ih2 l.next ps r (hf.suffix h1) (hl.next h2) h'
          cases hr' : runSeq Gr f ps r with
          | timeout => simp only [hr', PRes.map]; exact trivial
          | fail => simp only [hr', PRes.map]; exact .tail h3 (h'.fail_iff hr')
          | ok cs r' =>
            simp only [hr', PRes.map]
            obtain ⟨k1, k2, k3⟩ := h'.ok_iff hr'
            exact ⟨k1.trans h1, k2.trans h2, .cons h3 k3⟩
      | @path l ps h' =>
        have hc : rePath.Calm := ⟨rfl, rfl⟩
        simp only [runSeq]
        cases hr : run Gr f (.ref .path_import) a with
        | timeout => exact trivial
        | fail =>
          refine .head (.ref (.rx ?_))
          rw [RE.match?_append hc]
          cases hm : rePath.match? a with
          | none => rfl
          | some x => exact (Yields.not_fails (G := Gr) (p := .ref .path_import) (.ref (.rx hm)) ⟨f, hr⟩).elim
        | ok c r =>
          cases hm : rePath.match? a with
          | none => exact (Yields.not_fails ⟨f, hr⟩ (.ref (.rx hm))).elim
          | some x =>
            obtain ⟨rfl, rfl⟩ := Yields.unique (G := Gr) (p := .ref .path_import) ⟨f, hr⟩ (.ref (.rx hm))
            have h1 := RE.match?_suffix hm
            have hy : Yields Gr (.ref .path_import) (a ++ '\n' :: t)
                (PTree.rename .path_import (.node none (consumed a r) [])) (r ++ '\n' :: t) := by
              rw [← consumed_append_both h1 ('\n' :: t)]
              refine .ref (.rx ?_)
              rw [RE.match?_append hc, hm]
              rfl
            cases f with
            | zero => exact trivial
            | succ f =>
              simp only [runSeq]
              have h := (IH f (by omega)).1 .nothing (.ref .space) r (hf.suffix h1) trivial (.ref rfl rfl)
              cases hr2 : run Gr f (.ref .space) r with
              | timeout => exact trivial
              | fail => exact .tail hy (.head (h.fail_iff hr2))
              | ok c2 r2 =>
                obtain ⟨k1, k2, k3⟩ := h.ok_iff hr2
                have hb : ∃ d, r.head? = some d ∧ isBlank d = true := by
                  cases hs : reSpace.match? r with
                  | none => exact (Yields.not_fails ⟨f, hr2⟩ (.ref (.rx hs))).elim
                  | some x =>
                    cases r with
                    | nil => simp [RE.match?, reSpace, RE.many1, RE.rests] at hs
                    | cons d r =>
                      refine ⟨d, rfl, ?_⟩
                      cases hd : isBlank d with
                      | true => rfl
                      | false => simp [RE.match?, reSpace, RE.many1, RE.rests, hd] at hs
                obtain ⟨d, hd, hb⟩ := hb
                have hn := rePath_net hf hm hd hb hsp
                have h' := (IH f (by omega)).2.1 l.next ps r2 (hf.suffix (k1.trans h1)) (hl.next (k2.trans hn)) h'
                cases hr' : runSeq Gr f ps r2 with
                | timeout => simp only [hr', PRes.map]; exact trivial
                | fail => simp only [hr', PRes.map]; exact .tail hy (.tail k3 (h'.fail_iff hr'))
                | ok cs r' =>
                  simp only [hr', PRes.map]
                  obtain ⟨j1, j2, j3⟩ := h'.ok_iff hr'
                  exact ⟨j1.trans (k1.trans h1), j2.trans (k2.trans hn), .cons hy (.cons k3 j3)⟩
    · intro l ps a hf hl hp
      cases hp with
      | nil => exact FailsAlt.nil _
      | @cons l p ps h h' =>
        have h := ih1 l p a hf hl h
        have h' := ih3 l ps a hf hl h'
        simp only [runAlt]
        cases hr : run Gr f p a with
        | timeout => exact trivial
        | ok c r =>
          obtain ⟨h1, h2, h3⟩ := h.ok_iff hr
          exact ⟨h1, h2, .here h3⟩
        | fail =>
          cases hr' : runAlt Gr f ps a with
          | timeout => exact trivial
          | fail => exact .cons (h.fail_iff hr) (h'.fail_iff hr')
          | ok cs r' =>
            obtain ⟨k1, k2, k3⟩ := h'.ok_iff hr'
            exact ⟨k1, k2, .there (h.fail_iff hr) k3⟩
    · intro l p a hf hl hp hp'
      have h := ih1 l p a hf hl hp
      simp only [runStar]
      cases hr : run Gr f p a with
      | timeout => exact trivial
      | fail => exact ⟨List.suffix_refl _, rfl, .nil (h.fail_iff hr)⟩
      | ok c r =>
        obtain ⟨h1, h2, h3⟩ := h.ok_iff hr
        by_cases he : r.length = a.length
        · simp only [he, if_true]
          exact ⟨List.suffix_refl _, rfl, .empty h3 (by simp [he])⟩
        · simp only [he, if_false]
          have h' := ih4 l.next p r (hf.suffix h1) (hl.next h2) hp' (by rw [nextnext]; exact hp')
          cases hr' : runStar Gr f p r with
          | timeout => simp only [PRes.map]; exact trivial
          | fail => exact (h'.fail_iff hr').elim
          | ok cs r' =>
            simp only [PRes.map]
            obtain ⟨k1, k2, k3⟩ := h'.ok_iff hr'
            exact ⟨k1.trans h1, k2.trans h2, .cons h3 (by simpa using he) k3⟩
    · intro l p a hf hl hp hp'
      have h := ih1 l p a hf hl hp
      simp only [runPlus]
      cases hr : run Gr f p a with
      | timeout => exact trivial
      | fail => exact .plus (h.fail_iff hr)
      | ok c r =>
        obtain ⟨h1, h2, h3⟩ := h.ok_iff hr
        by_cases he : r.length = a.length
        · simp only [he, if_true]
          exact ⟨List.suffix_refl _, rfl, .plus_empty h3 (by simp [he])⟩
        · simp only [he, if_false]
          have h' := ih6 l.next p r (hf.suffix h1) (hl.next h2) hp' (by rw [nextnext]; exact hp')
          cases hr' : runMore Gr f p r with
          | timeout => simp only [PRes.map]; exact trivial
          | fail => exact (h'.fail_iff hr').elim
          | ok cs r' =>
            simp only [PRes.map]
            obtain ⟨k1, k2, k3⟩ := h'.ok_iff hr'
            exact ⟨k1.trans h1, k2.trans h2, .plus h3 (by simpa using he) k3⟩
    · intro l p a hf hl hp hp'
      have h := ih1 l p a hf hl hp
      simp only [runMore]
      cases hr : run Gr f p a with
      | timeout => exact trivial
      | fail => exact ⟨List.suffix_refl _, rfl, .nil (h.fail_iff hr)⟩
      | ok c r =>
        obtain ⟨h1, h2, h3⟩ := h.ok_iff hr
        by_cases he : r.length = a.length
        · simp only [he, if_true]
          exact ⟨List.suffix_refl _, rfl, .empty h3 (by simp [he])⟩
        · simp only [he, if_false]
          have h' := ih6 l.next p r (hf.suffix h1) (hl.next h2) hp' (by rw [nextnext]; exact hp')
          cases hr' : runMore Gr f p r with
          | timeout => simp only [PRes.map]; exact trivial
          | fail => exact (h'.fail_iff hr').elim
          | ok cs r' =>
            simp only [PRes.map]
            obtain ⟨k1, k2, k3⟩ := h'.ok_iff hr'
            exact ⟨k1.trans h1, k2.trans h2, .cons h3 (by simpa using he) k3⟩

end
end
end Verif
