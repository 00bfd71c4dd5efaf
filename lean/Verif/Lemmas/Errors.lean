import Verif.Model.Errors
import Verif.Lemmas.Preprocess

/-! Positions of nodes in the original script. -/

namespace Verif
open Py Spec

theorem strCount_append (c : Char) (a b : Str) : strCount c (a ++ b) = strCount c a + strCount c b := by
  simp [strCount]

theorem strCount_none {c : Char} {s : Str} (h : c ∉ s) : strCount c s = 0 := by
  unfold strCount
  rw [List.length_eq_zero_iff, List.filter_eq_nil_iff]
  intro d hd
  simp only [beq_iff_eq]
  rintro rfl
  exact h hd

theorem strCount_cons (c d : Char) (s : Str) :
    strCount c (d :: s) = (if d = c then 1 else 0) + strCount c s := by
  unfold strCount
  by_cases h : d = c
  · subst h; simp [Nat.add_comm]
  · simp [h]

theorem rfind_none {c : Char} {s : Str} (h : c ∉ s) : rfind c s = -1 := by
  induction s with
  | nil => rfl
  | cons d s ih =>
    have h1 : c ∉ s := fun hm => h (List.mem_cons_of_mem _ hm)
    have h2 : d ≠ c := fun e => h (by rw [e]; exact List.mem_cons_self)
    simp [rfind, ih h1, h2]

theorem rfind_append {c : Char} (a : Str) {b : Str} (h : c ∉ b) :
    rfind c (a ++ c :: b) = a.length := by
  induction a with
  | nil => simp [rfind, rfind_none h]
  | cons d a ih =>
    rw [List.cons_append, rfind, ih, if_pos (Int.natCast_nonneg _)]
    simp

/-- The balance of marks. -/
def balance (M : Marks) (s : Str) : Int :=
  ((strCount M.indentS s + strCount M.indentT s : Nat) : Int) -
    ((strCount M.dedentS s + strCount M.dedentT s : Nat) : Int)

theorem balance_append (M : Marks) (a b : Str) : balance M (a ++ b) = balance M a + balance M b := by
  simp only [balance, strCount_append]
  omega

theorem balance_plain {M : Marks} {s : Str} (h : ∀ c ∈ s, isMark M c = false) : balance M s = 0 := by
  have : ∀ d, isMark M d = true → strCount d s = 0 := fun d hd =>
    strCount_none (fun hm => by rw [h d hm] at hd; cases hd)
  unfold balance
  rw [this M.indentS (by simp [isMark]), this M.indentT (by simp [isMark]),
    this M.dedentS (by simp [isMark]), this M.dedentT (by simp [isMark])]
  rfl

theorem balance_indent {M : Marks} (hd : Marks.Distinct M) (s : Str) :
    balance M (indentSymbols M s) = s.length := by
  obtain ⟨n1, n2, n3, n4, n5, n6⟩ := distinct_ne hd
  induction s with
  | nil => rfl
  | cons c s ih =>
    have e : indentSymbols M (c :: s) = [if c = ' ' then M.indentS else M.indentT] ++ indentSymbols M s := rfl
    rw [e, balance_append, ih]
    have : balance M [if c = ' ' then M.indentS else M.indentT] = 1 := by
      split <;> simp [balance, n1, n2, n2.symm, n3, n4.symm, n6, strCount]
    rw [this]
    simp only [List.length_cons]
    omega

theorem balance_dedent {M : Marks} (hd : Marks.Distinct M) (s : Str) :
    balance M (dedentSymbols M s) = - s.length := by
  obtain ⟨n1, n2, n3, n4, n5, n6⟩ := distinct_ne hd
  unfold dedentSymbols
  rw [← List.length_reverse]
  induction s.reverse with
  | nil => rfl
  | cons c s ih =>
    rw [List.map_cons, ← List.singleton_append, balance_append, ih]
    have : balance M [if c = ' ' then M.dedentS else M.dedentT] = -1 := by
      split <;> simp [balance, n1.symm, n3.symm, n4, n5, n5.symm, n6.symm, strCount]
    rw [this]
    simp only [List.length_cons]
    omega

theorem balance_change {M : Marks} (hd : Marks.Distinct M) {cur ind : Str}
    (h : cur <+: ind ∨ ind <+: cur) : balance M (change M cur ind) = ind.length - cur.length := by
  unfold change
  by_cases h1 : cur <+: ind
  · rw [if_pos h1, balance_indent hd, List.length_drop]
    have := h1.length_le
    omega
  · rw [if_neg h1, balance_dedent hd, List.length_drop]
    have := (h.resolve_left h1).length_le
    omega

/-- Neither a mark nor a newline. -/
def Plain (M : Marks) (s : Str) : Prop := ∀ c ∈ s, isMark M c = false ∧ c ≠ '\n'

theorem Plain.append_left {M : Marks} {a b : Str} (h : Plain M (a ++ b)) : Plain M a :=
  fun c hc => h c (List.mem_append_left _ hc)

theorem Plain.append_right {M : Marks} {a b : Str} (h : Plain M (a ++ b)) : Plain M b :=
  fun c hc => h c (List.mem_append_right _ hc)

theorem Plain.notNl {M : Marks} {a : Str} (h : Plain M a) : '\n' ∉ a := fun hm => (h _ hm).2 rfl

/-- The encoding begins with a mark or newline. -/
theorem enc_start {M : Marks} {cur : Str} {m k : Nat} {ls : List Str} {out : Str}
    (h : enc M cur m k ls = .ok out) {c : Char} {s : Str} (hs : out = c :: s) :
    ¬ (isMark M c = false ∧ c ≠ '\n') := by
  induction ls generalizing cur m k with
  | nil =>
    simp only [enc, Except.ok.injEq] at h
    rintro ⟨h1, h2⟩
    have : c ∈ dedentSymbols M cur ++ List.replicate m '\n' := by rw [h, hs]; exact List.mem_cons_self
    rcases List.mem_append.1 this with h3 | h3
    · rw [dedent_marks M cur c h3] at h1; cases h1
    · exact h2 (List.mem_replicate.1 h3).2
  | cons l ls ih =>
    simp only [enc] at h
    split at h
    · exact ih h
    · split at h
      · split at h
        · cases h
        · simp only [Except.ok.injEq] at h
          rintro ⟨h1, h2⟩
          cases hc : change M cur (leading (rstrip l)) with
          | nil =>
            rw [hc, hs] at h
            simp only [List.nil_append, List.cons_append, List.cons.injEq] at h
            exact h2 h.1.symm
          | cons d ds =>
            rw [hc, hs] at h
            simp only [List.cons_append, List.cons.injEq] at h
            have := change_marks M cur (leading (rstrip l)) d (by rw [hc]; exact List.mem_cons_self)
            rw [h.1, h1] at this
            cases this
      · cases h

/-- A place of a script: line `l` number `i`, the text `s` after `a`, before `b`. -/
theorem enc_place {M : Marks} (hd : Marks.Distinct M) (hnl : isMark M '\n' = false)
    {cur : Str} {m k : Nat} {ls : List Str} (hls : ∀ l ∈ ls, '\n' ∉ l)
    (hpl : ∀ l ∈ ls, ∀ c ∈ l, isMark M c = false) {out : Str} (h : enc M cur m k ls = .ok out)
    {pre s post : Str} (hs : s ≠ []) (hp : Plain M s) (ho : out = pre ++ (s ++ post)) :
    ∃ i l a b p, ls[i]? = some l ∧ l = leading l ++ a ++ s ++ b ∧ pre = p ++ '\n' :: a ∧ '\n' ∉ a ∧
      strCount '\n' pre = m + i + 1 ∧ balance M pre = (leading l).length - cur.length := by
  have foreign : ∀ {C rest p : Str}, (∀ c ∈ C, ¬ (isMark M c = false ∧ c ≠ '\n')) →
      C ++ rest = p ++ (s ++ post) → ∃ p', p = C ++ p' ∧ rest = p' ++ (s ++ post) := by
    intro C rest p hC he
    rcases List.append_eq_append_iff.1 he with ⟨a, h1, h2⟩ | ⟨c, h1, h2⟩
    · exact ⟨a, h1, h2⟩
    · cases c with
      | nil =>
        exact ⟨[], by simpa using h1.symm, by simpa using h2.symm⟩
      | cons x xs =>
        cases s with
        | nil => exact absurd rfl hs
        | cons y ys =>
          simp only [List.cons_append, List.cons.injEq] at h2
          refine absurd (hp y List.mem_cons_self) (hC y ?_)
          rw [h1, h2.1]
          simp
  induction ls generalizing cur m k out pre with
  | nil =>
    exfalso
    simp only [enc, Except.ok.injEq] at h
    cases s with
    | nil => exact hs rfl
    | cons y ys =>
      have hy := hp y List.mem_cons_self
      have : y ∈ dedentSymbols M cur ++ List.replicate m '\n' := by rw [h, ho]; simp
      rcases List.mem_append.1 this with h3 | h3
      · rw [dedent_marks M cur y h3] at hy; cases hy.1
      · exact hy.2 (List.mem_replicate.1 h3).2
  | cons l ls ih =>
    have hls' : ∀ l ∈ ls, '\n' ∉ l := fun x hx => hls x (List.mem_cons_of_mem _ hx)
    have hpl' : ∀ l ∈ ls, ∀ c ∈ l, isMark M c = false := fun x hx => hpl x (List.mem_cons_of_mem _ hx)
    simp only [enc] at h
    split at h
    · obtain ⟨i, l', a, b, p, h1, h2, h3, h4, h5, h6⟩ := ih hls' hpl' h ho
      exact ⟨i + 1, l', a, b, p, h1, h2, h3, h4, by omega, h6⟩
    · rename_i hb
      split at h
      · rename_i hpre
        split at h
        · cases h
        · rename_i r hr
          simp only [Except.ok.injEq] at h
          have hblank : NonBlank l := by
            by_cases hn : NonBlank l
            · exact hn
            · exact absurd (lstrip_rstrip_eq_nil.2 hn) hb
          have hlead : leading (rstrip l) = leading l := leading_rstrip hblank
          rw [hlead] at hpre hr h
          -- the first part: marks and newlines
          have hC : ∀ c ∈ change M cur (leading l) ++ '\n' :: List.replicate m '\n',
              ¬ (isMark M c = false ∧ c ≠ '\n') := by
            rintro c hc ⟨g1, g2⟩
            rcases List.mem_append.1 hc with h3 | h3
            · rw [change_marks M cur _ c h3] at g1; cases g1
            · cases h3 with
              | head => exact g2 rfl
              | tail _ h3 => exact g2 (List.mem_replicate.1 h3).2
          obtain ⟨q, hq1, hq2⟩ := foreign (C := change M cur (leading l) ++ '\n' :: List.replicate m '\n')
            (rest := lstrip (rstrip l) ++ r) hC (by rw [← ho, ← h]; simp)
          have htail : ∀ c ∈ lstrip (rstrip l), isMark M c = false ∧ c ≠ '\n' := by
            intro c hc
            have hm := mem_rstrip (mem_lstrip hc)
            exact ⟨hpl l List.mem_cons_self c hm, fun e => hls l List.mem_cons_self (e ▸ hm)⟩
          have cnt : strCount '\n' (change M cur (leading l) ++ '\n' :: List.replicate m '\n') = m + 1 := by
            rw [strCount_append, strCount_none (not_nl_of_marks hnl (change_marks M cur _)), strCount_cons]
            simp [strCount]
            omega
          have bal : balance M (change M cur (leading l) ++ '\n' :: List.replicate m '\n') =
              (leading l).length - cur.length := by
            rw [balance_append, balance_change hd hpre, balance_plain]
            · omega
            · intro c hc
              cases hc with
              | head => exact hnl
              | tail _ hc => rw [(List.mem_replicate.1 hc).2]; exact hnl
          have hl : l = leading l ++ lstrip (rstrip l) ++ (l.drop (rstrip l).length) := by
            obtain ⟨t, ht, -⟩ := rstrip_append l
            have h1 := leading_append_lstrip (rstrip l)
            rw [hlead] at h1
            rw [h1]
            conv_lhs => rw [ht]
            congr 1
            conv_rhs => rw [ht]
            have : (rstrip (rstrip l ++ t)) = rstrip l := by rw [← ht]
            rw [this, List.drop_left]
          -- is it in this line?
          rcases List.append_eq_append_iff.1 hq2 with ⟨a, h1, h2⟩ | ⟨c, h1, h2⟩
          · -- after this line
            obtain ⟨i, l', a', b, p, e1, e2, e3, e4, e5, e6⟩ := ih hls' hpl' hr h2
            refine ⟨i + 1, l', a', b, change M cur (leading l) ++ '\n' :: List.replicate m '\n' ++
              lstrip (rstrip l) ++ p, e1, e2, ?_, e4, ?_, ?_⟩
            · rw [hq1, h1, e3]; simp
            · rw [hq1, h1, strCount_append, cnt, strCount_append, e5,
                strCount_none (fun hm => (htail _ hm).2 rfl)]
              omega
            · rw [hq1, h1, balance_append, bal, balance_append, e6,
                balance_plain (fun c hc => (htail c hc).1)]
              omega
          · -- `q` ends within the line
            have hin : ∃ d, c = s ++ d := by
              rcases List.append_eq_append_iff.1 h2 with ⟨a, g1, g2⟩ | ⟨d, g1, g2⟩
              · exact ⟨a, g1⟩
              · cases d with
                | nil => exact ⟨[], by simpa using g1.symm⟩
                | cons y ys =>
                  exfalso
                  refine enc_start hr (c := y) (s := ys ++ post) (by rw [g2]; rfl) (hp y ?_)
                  rw [g1]; simp
            obtain ⟨d, rfl⟩ := hin
            have hqplain : ∀ x ∈ q, isMark M x = false ∧ x ≠ '\n' := fun x hx => htail x (by rw [h1]; simp [hx])
            refine ⟨0, l, q, d ++ l.drop (rstrip l).length, ?_⟩
            have hrep : ∃ p0, change M cur (leading l) ++ '\n' :: List.replicate m '\n' = p0 ++ ['\n'] := by
              refine ⟨change M cur (leading l) ++ List.replicate m '\n', ?_⟩
              rw [List.append_assoc]
              congr 1
              rw [← List.replicate_succ, List.replicate_succ']
            obtain ⟨p0, hp0⟩ := hrep
            refine ⟨p0, rfl, ?_, ?_, fun hm => (hqplain _ hm).2 rfl, ?_, ?_⟩
            · conv_lhs => rw [hl, h1]
              simp
            · rw [hq1, hp0]; simp
            · rw [hq1, strCount_append, cnt, strCount_none (fun hm => (hqplain _ hm).2 rfl)]
            · rw [hq1, balance_append, bal, balance_plain (fun c hc => (hqplain c hc).1)]
              omega
      · cases h

end Verif
