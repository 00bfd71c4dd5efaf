import Verif.Lemmas.JoiningText
import Verif.Lemmas.Builds

/-! Documents that are put together. -/

namespace Verif
open Py Spec

section
variable {M : Marks} {U : Uni}

local notation "Gr" => rule M U

/-- The text is a series of blocks, and `rest`. -/
def BlockSeries (M : Marks) (U : Uni) (s : Str) (cs : List (PTree NT)) (rest : Str) : Prop :=
  ∃ f, runPlus (rule M U) f (.ref .block) s = .ok cs rest

theorem block_nil : Fails Gr (.ref .block) [] :=
  .ref (.seq (.head (.ref (.seq (.head (.ref (.rx rfl)))))))

theorem tailBlocks_nl {s : Str} (h1 : M.indentS ≠ '\n') (h2 : M.indentT ≠ '\n') : Fails Gr (.ref .tail_blocks) ('\n' :: s) := by
  refine .ref (.alt (.cons (.seq (.head (.ref (.lit ?_)))) (.cons (.seq (.head (.ref (.lit ?_)))) (.nil _))))
  · simp [List.isPrefixOf, h1]
  · simp [List.isPrefixOf, h2]

theorem dropNl_nil {s : Str} : s.dropWhile (· == '\n') = [] ↔ ∀ c ∈ s, c = '\n' := by
  induction s with
  | nil => simp
  | cons c s ih =>
    by_cases hc : c = '\n'
    · simp [hc, ih]
    · simp [hc]

/-- A margin matches a text of newlines only. -/
theorem margin_all {s : Str} (hs : ∀ c ∈ s, c = '\n') : ∃ c, Yields Gr (.opt (.ref .margin)) s c [] := by
  cases s with
  | nil => exact ⟨_, .opt_none (.ref (.seq (.head (.ref (.rx rfl)))))⟩
  | cons d s =>
    have := hs d List.mem_cons_self
    subst this
    obtain ⟨c, hc⟩ := nl_rest (M := M) U s
    have e : s.dropWhile (· == '\n') = [] := dropNl_nil.2 (fun c hc => hs c (List.mem_cons_of_mem _ hc))
    rw [e] at hc
    exact ⟨_, .opt_some (.ref (.seq (.cons hc (.cons (.lit [] []) (.nil _)))))⟩

/-- If nothing remains after a margin, then there were newlines only. -/
theorem margin_nothing {s : Str} {c : PTree NT} (h : Yields Gr (.opt (.ref .margin)) s c []) : ∀ d ∈ s, d = '\n' := by
  cases s with
  | nil => simp
  | cons d s =>
    by_cases hd : d = '\n'
    · subst hd
      obtain ⟨c', hc⟩ := nl_rest (M := M) U s
      have hy : Yields Gr (.opt (.ref .margin)) ('\n' :: s) _ _ :=
        .opt_some (.ref (.seq (.cons hc (.cons (.lit [] _) (.nil _)))))
      have e := (h.unique hy).2
      intro x hx
      rcases List.mem_cons.1 hx with rfl | hx
      · rfl
      · exact dropNl_nil.1 e.symm x hx
    · exfalso
      have hy : Yields Gr (.opt (.ref .margin)) (d :: s) _ _ :=
        .opt_none (.ref (.seq (.head (.ref (.rx (by
          simp [RE.match?, reNl, RE.many1, RE.rests, hd]))))))
      have := (h.unique hy).2
      cases this

theorem parse_yields {s : Str} {t : PTree NT} : parse M U s = .ok t ↔ Yields Gr (.ref .document) s t [] := by
  constructor
  · intro h
    unfold parse at h
    split at h
    · next hr => cases h; exact ⟨_, hr⟩
    · cases h
    · cases h
    · cases h
  · rintro ⟨f, h⟩
    have hne : run Gr (parseFuel s.length) (.ref .document) s ≠ .timeout := by
      refine ((rule_noLeftRec M U).run_result (parseFuel s.length) s.length 25 1 ?_).1
        (.ref .document) s (Nat.le_refl _) (Peg.leftBelow_top rankRule_lt _) (Nat.le_refl _)
      simp [parseFuel, fuelFor]
    have ha := run_mono Gr (Nat.le_max_left f (parseFuel s.length)) h (by simp)
    have hb := run_mono Gr (Nat.le_max_right f (parseFuel s.length)) rfl hne
    rw [ha] at hb
    unfold parse
    rw [← hb]

theorem document_of_blocks {s : Str} (h1 : M.indentS ≠ '\n') (h2 : M.indentT ≠ '\n') {cs : List (PTree NT)} {rest : Str}
    (hc : BlockSeries M U ('\n' :: s) cs rest) (hr : ∀ c ∈ rest, c = '\n') :
    ∃ t, Yields Gr (.ref .document) ('\n' :: s) t [] ∧ topBlocks t = cs := by
  obtain ⟨f, hc⟩ := hc
  obtain ⟨c, hm⟩ := margin_all (M := M) (U := U) hr
  have hp : Yields Gr (.plus (.ref .block)) ('\n' :: s) (anon ('\n' :: s) rest cs) rest :=
    ⟨f + 1, by simp [run, hc, wrapMany]⟩
  have hcore : Yields Gr (.ref .core_blocks) ('\n' :: s) _ rest :=
    .ref (.alt (.there (tailBlocks_nl h1 h2) (.here hp)))
  exact ⟨_, .ref (.seq (.cons (.opt_some hcore) (.cons hm (.nil _)))), rfl⟩

theorem blocks_of_document {s : Str} (h1 : M.indentS ≠ '\n') (h2 : M.indentT ≠ '\n') {t : PTree NT}
    (h : Yields Gr (.ref .document) ('\n' :: s) t []) (hs : ∃ c ∈ s, c ≠ '\n') :
    ∃ rest, BlockSeries M U ('\n' :: s) (topBlocks t) rest ∧ ∀ c ∈ rest, c = '\n' := by
  rcases (rule_noLeftRec M U).total (.plus (.ref .block)) ('\n' :: s) with ⟨p, rest, hp⟩ | hp
  · obtain ⟨f, hf⟩ := hp
    cases f with
    | zero => cases hf
    | succ f =>
      simp only [run] at hf
      cases hr : runPlus Gr f (.ref .block) ('\n' :: s) with
      | timeout => rw [hr] at hf; cases hf
      | fail => rw [hr] at hf; cases hf
      | ok cs r =>
        rw [hr] at hf
        simp only [wrapMany, PRes.ok.injEq] at hf
        obtain ⟨rfl, rfl⟩ := hf
        have hp : Yields Gr (.plus (.ref .block)) ('\n' :: s) (anon ('\n' :: s) r cs) r :=
          ⟨f + 1, by simp [run, hr, wrapMany]⟩
        obtain ⟨c, x, hm⟩ := (rule_noLeftRec M U).opt (.ref .margin) r
        have hcore : Yields Gr (.ref .core_blocks) ('\n' :: s) _ r :=
          .ref (.alt (.there (tailBlocks_nl h1 h2) (.here hp)))
        have hdoc : Yields Gr (.ref .document) ('\n' :: s) _ _ :=
          .ref (.seq (.cons (.opt_some hcore) (.cons hm (.nil _))))
        obtain ⟨rfl, rfl⟩ := h.unique hdoc
        exact ⟨r, ⟨f, hr⟩, margin_nothing hm⟩
  · exfalso
    obtain ⟨c, x, hm⟩ := (rule_noLeftRec M U).opt (.ref .margin) ('\n' :: s)
    have hcore : Fails Gr (.ref .core_blocks) ('\n' :: s) :=
      .ref (.alt (.cons (tailBlocks_nl h1 h2) (.cons hp (.nil _))))
    have hdoc : Yields Gr (.ref .document) ('\n' :: s) _ _ :=
      .ref (.seq (.cons (.opt_none hcore) (.cons hm (.nil _))))
    obtain ⟨rfl, rfl⟩ := h.unique hdoc
    obtain ⟨d, hd, hn⟩ := hs
    exact hn (margin_nothing hm d (List.mem_cons_of_mem _ hd))

variable [hM : MarksApart M U] {t : Str}

theorem more_join (hsp : ∀ c, isMark M c = true → isSpace c = false) (hT : Ending t) {cs2 : List (PTree NT)}
    {rest : Str} (h2 : YieldsMore Gr (.ref .block) ('\n' :: t) cs2 rest) (f : Nat) :
    ∀ (a : Str) (cs : List (PTree NT)), Joinable M t a → runMore Gr f (.ref .block) a = .ok cs [] →
      YieldsMore Gr (.ref .block) (a ++ '\n' :: t) (cs ++ cs2) rest := by
  induction f with
  | zero => intro a cs _ h; cases h
  | succ f ih =>
    intro a cs hf h
    simp only [runMore] at h
    by_cases ha : a = []
    · subst ha
      cases hr : run Gr f (.ref .block) [] with
      | timeout => rw [hr] at h; cases h
      | ok c r => exact (Yields.not_fails ⟨f, hr⟩ block_nil).elim
      | fail =>
        rw [hr] at h
        cases h
        exact h2
    · have hc := (run_carries U hsp hT f).1 .char (.ref .block) a hf ha (.ref rfl rfl)
      cases hr : run Gr f (.ref .block) a with
      | timeout => rw [hr] at h; cases h
      | fail => rw [hr] at h; cases h; exact absurd rfl ha
      | ok c r =>
        obtain ⟨k1, _, k3⟩ := hc.ok_iff hr
        rw [hr] at h
        by_cases he : r.length = a.length
        · simp only [he, if_true] at h
          cases h
          exact absurd rfl ha
        · simp only [he, if_false] at h
          cases hm : runMore Gr f (.ref .block) r with
          | timeout => rw [hm] at h; cases h
          | fail => rw [hm] at h; cases h
          | ok cs' x =>
            rw [hm] at h
            simp only [PRes.map, PRes.ok.injEq] at h
            obtain ⟨rfl, rfl⟩ := h
            exact .cons k3 (by simpa using he) (ih r cs' (hf.suffix k1) hm)

omit hM in
/-- A series of blocks is a part of a longer one. -/
theorem BlockSeries.more {s rest : Str} {cs : List (PTree NT)} (h : BlockSeries M U s cs rest) :
    YieldsMore Gr (.ref .block) s cs rest := by
  obtain ⟨f, h⟩ := h
  refine ⟨f, ?_⟩
  cases f with
  | zero => cases h
  | succ f =>
    simp only [runPlus, runMore] at h ⊢
    cases hr : run Gr f (.ref .block) s with
    | timeout => rw [hr] at h; cases h
    | fail => rw [hr] at h; cases h
    | ok c r => rw [hr] at h; exact h

omit hM in
theorem YieldsMore.series {s rest : Str} {c : PTree NT} {cs : List (PTree NT)}
    (h : YieldsMore Gr (.ref .block) s (c :: cs) rest) : BlockSeries M U s (c :: cs) rest := by
  obtain ⟨f, h⟩ := h
  refine ⟨f, ?_⟩
  cases f with
  | zero => cases h
  | succ f =>
    simp only [runPlus, runMore] at h ⊢
    cases hr : run Gr f (.ref .block) s with
    | timeout => rw [hr] at h; cases h
    | fail => rw [hr] at h; cases h
    | ok c r => rw [hr] at h; exact h

omit hM in
theorem BlockSeries.cons {s rest : Str} {cs : List (PTree NT)} (h : BlockSeries M U s cs rest) :
    ∃ c cs', cs = c :: cs' := by
  obtain ⟨f, h⟩ := h
  cases f with
  | zero => cases h
  | succ f =>
    simp only [runPlus] at h
    cases hr : run Gr f (.ref .block) s with
    | timeout => rw [hr] at h; cases h
    | fail => rw [hr] at h; cases h
    | ok c r =>
      rw [hr] at h
      simp only at h
      split at h
      · cases h; exact ⟨_, _, rfl⟩
      · cases hm : runMore Gr f (.ref .block) r with
        | timeout => rw [hm] at h; cases h
        | fail => rw [hm] at h; cases h
        | ok cs' x => rw [hm] at h; cases h; exact ⟨_, _, rfl⟩

theorem BlockSeries.join (hsp : ∀ c, isMark M c = true → isSpace c = false) (hT : Ending t) {a rest : Str}
    (hf : Joinable M t a) {cs1 cs2 : List (PTree NT)} (h1 : BlockSeries M U a cs1 [])
    (h2 : BlockSeries M U ('\n' :: t) cs2 rest) : BlockSeries M U (a ++ '\n' :: t) (cs1 ++ cs2) rest := by
  obtain ⟨c, cs', rfl⟩ := h1.cons
  obtain ⟨f, h1⟩ := h1.more
  exact (more_join hsp hT h2.more f a _ hf h1).series

end
end Verif
