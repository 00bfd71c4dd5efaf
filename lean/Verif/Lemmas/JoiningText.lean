import Verif.Lemmas.JoiningRun
import Verif.Lemmas.Preprocess
import Verif.Spec.Joining

/-! The encoding of two texts that are put together. -/

namespace Verif
open Py Spec

section
variable {M : Marks}

/-- Blank lines before the first line that is not blank. -/
theorem enc_blankLines (cur : Str) (m k : Nat) (ls : List Str) (rest : List Str) (h : ∀ x ∈ ls, ¬ NonBlank x) :
    enc M cur m k (ls ++ rest) = enc M cur (m + ls.length) (k + ls.length) rest := by
  induction ls generalizing m k with
  | nil => rfl
  | cons x ls ih =>
    have hx : lstrip (rstrip x) = [] := lstrip_rstrip_eq_nil.2 (h x List.mem_cons_self)
    simp only [List.cons_append, enc, hx, if_true]
    rw [ih _ _ (fun y hy => h y (List.mem_cons_of_mem _ hy))]
    simp only [List.length_cons]
    congr 1 <;> omega

/-- Numbers of lines occur in error messages only. -/
theorem enc_number {cur : Str} {m k k' : Nat} {ls : List Str} {out : Str} (h : enc M cur m k ls = .ok out) :
    enc M cur m k' ls = .ok out := by
  induction ls generalizing cur m k k' out with
  | nil => exact h
  | cons l ls ih =>
    simp only [enc] at h ⊢
    split at h
    · next hb => rw [if_pos hb]; exact ih h
    · next hb =>
      rw [if_neg hb]
      split at h
      · next hc =>
        rw [if_pos hc]
        cases he : enc M (leading (rstrip l)) 0 (k + 1) ls with
        | error e => rw [he] at h; cases h
        | ok r =>
          rw [he] at h
          rw [ih (k' := k' + 1) he]
          exact h
      · cases h

theorem find_split {p : Str → Bool} {ls : List Str} {l : Str} (h : ls.find? p = some l) :
    ∃ as bs, ls = as ++ l :: bs ∧ p l = true ∧ ∀ a ∈ as, p a = false := by
  obtain ⟨h1, as, bs, h2, h3⟩ := List.find?_eq_some_iff_append.1 h
  exact ⟨as, bs, h2, h1, fun a ha => by simpa using h3 a ha⟩

theorem lstrip_not_blank {l : Str} (h : lstrip l ≠ []) : ∃ c s, lstrip l = c :: s ∧ isSpace c = false := by
  cases hl : lstrip l with
  | nil => exact absurd hl h
  | cons c s =>
    refine ⟨c, s, rfl, ?_⟩
    have := List.head?_dropWhile_not (p := isSpace) l
    rw [show l.dropWhile isSpace = lstrip l from rfl, hl] at this
    simpa using this

/-- The first line that is not blank closes all groups, if it is not indented. -/
theorem enc_first {ls : List Str} {l : Str} (hl : ls.find? (fun l => decide (NonBlank l)) = some l)
    (hi : leading l = []) {k : Nat} {out : Str} (h : enc M [] 0 k ls = .ok out) :
    (∃ m r k', out = '\n' :: (List.replicate m '\n' ++ (lstrip (rstrip l) ++ r)) ∧
      ∃ bs, enc M [] 0 k' bs = .ok r) ∧
    ∀ cur k', enc M cur 0 k' ls = .ok (dedentSymbols M cur ++ out) := by
  obtain ⟨as, bs, rfl, h1, h2⟩ := find_split hl
  have h1 : NonBlank l := by simpa using h1
  have h2 : ∀ a ∈ as, ¬ NonBlank a := fun a ha => by simpa using h2 a ha
  have hne : lstrip (rstrip l) ≠ [] := fun e => lstrip_rstrip_eq_nil.1 e h1
  have hi' : leading (rstrip l) = [] := by rw [leading_rstrip h1, hi]
  rw [enc_blankLines _ _ _ _ _ h2] at h
  simp only [enc, if_neg hne, hi', List.nil_prefix, true_or, if_true] at h
  cases he : enc M [] 0 (k + as.length + 1) bs with
  | error e => rw [he] at h; cases h
  | ok r =>
    rw [he] at h
    simp only [Except.ok.injEq, change, List.prefix_refl, if_true, List.length_nil, List.drop_nil,
      indentSymbols] at h
    constructor
    · exact ⟨_, r, _, by rw [← h]; simp; rfl, bs, he⟩
    · intro cur k'
      rw [enc_blankLines _ _ _ _ _ h2]
      simp only [enc, if_neg hne, hi', List.nil_prefix, or_true, if_true]
      rw [enc_number he]
      simp only [Except.ok.injEq]
      rw [← h]
      have hc : change M cur [] = dedentSymbols M cur := by
        unfold change
        by_cases hcur : cur = []
        · subst hcur; simp [indentSymbols, dedentSymbols]
        · simp [hcur]
      rw [hc]
      simp

/-- The encoding of two texts is the concatenation of their encodings. -/
theorem enc_append {ls1 ls2 : List Str} {l2 : Str} (h2 : ls2.find? (fun l => decide (NonBlank l)) = some l2)
    (hi : leading l2 = []) {B : Str} (hB : enc M [] 0 0 ls2 = .ok B) {cur : Str} {m k : Nat} {A : Str}
    (h : (∃ l1, ls1.getLast? = some l1 ∧ NonBlank l1) ∨ ls1 = [] ∧ m = 0)
    (hA : enc M cur m k ls1 = .ok A) : enc M cur m k (ls1 ++ ls2) = .ok (A ++ B) := by
  induction ls1 generalizing cur m k A with
  | nil =>
    rcases h with ⟨l, h, _⟩ | ⟨_, rfl⟩
    · cases h
    · simp only [enc, List.replicate_zero, List.append_nil, Except.ok.injEq] at hA
      rw [List.nil_append, ← hA]
      exact (enc_first h2 hi hB).2 cur k
  | cons l ls ih =>
    rcases h with ⟨l1, h, hn⟩ | ⟨h, _⟩
    · have hnext : ls = [] ∧ l = l1 ∨ ls.getLast? = some l1 := by
        cases ls with
        | nil => exact .inl ⟨rfl, by simpa using h⟩
        | cons l' ls => exact .inr (by simpa using h)
      simp only [List.cons_append, enc] at hA ⊢
      split at hA
      · next hb =>
        rw [if_pos hb]
        rcases hnext with ⟨_, rfl⟩ | hnext
        · exact absurd hn (lstrip_rstrip_eq_nil.1 hb)
        · exact ih (.inl ⟨l1, hnext, hn⟩) hA
      · next hb =>
        rw [if_neg hb]
        split at hA
        · next hc =>
          rw [if_pos hc]
          cases he : enc M (leading (rstrip l)) 0 (k + 1) ls with
          | error e => rw [he] at hA; cases hA
          | ok r =>
            rw [he] at hA
            simp only [Except.ok.injEq] at hA
            have := ih (cur := leading (rstrip l)) (m := 0) (k := k + 1) (A := r) ?_ he
            · rw [this, ← hA]
              simp
            · rcases hnext with ⟨rfl, _⟩ | hnext
              · exact .inr ⟨rfl, rfl⟩
              · exact .inl ⟨l1, hnext, hn⟩
        · cases hA
    · cases h

/-- Where marks and quotes are in an encoded text. -/
structure Shape (M : Marks) (out : Str) : Prop where
  head : ∀ c, out.head? = some c → isMark M c = true ∨ c = '\n'
  raw : ∀ q v, q = '\'' ∨ q = '"' → 'r' :: q :: v <:+ out →
    ∃ w x, v = w ++ q :: x ∧ ∀ c ∈ w, c ≠ q ∧ isMark M c = false
  marks : ∀ c v, c :: v <:+ out → isMark M c = true →
    v = [] ∨ ∃ d v', v = d :: v' ∧ (isMark M d = true ∨ d = '\n')

theorem Shape.nil : Shape M [] where
  head c h := by cases h
  raw q v _ h := by simp at h
  marks c v h := by simp at h

theorem Shape.eol {c : Char} {out : Str} (hc : isMark M c = true ∨ c = '\n') (hr : c ≠ 'r')
    (h : Shape M out) : Shape M (c :: out) where
  head d hd := by cases hd; exact hc
  raw q v hq hv := by
    rcases List.suffix_cons_iff.1 hv with hv | hv
    · cases hv; exact absurd rfl hr
    · exact h.raw q v hq hv
  marks d v hv hd := by
    rcases List.suffix_cons_iff.1 hv with hv | hv
    · cases hv
      cases hv' : out with
      | nil => exact .inl rfl
      | cons e out' =>
        exact .inr ⟨e, out', rfl, h.head e (by rw [hv']; rfl)⟩
    · exact h.marks d v hv hd

theorem Shape.eols {u out : Str} (hu : ∀ c ∈ u, isMark M c = true ∨ c = '\n') (hr : 'r' ∉ u)
    (h : Shape M out) : Shape M (u ++ out) := by
  induction u with
  | nil => exact h
  | cons c u ih =>
    refine .eol (hu c List.mem_cons_self) (fun e => hr (by simp [e])) ?_
    exact ih (fun d hd => hu d (List.mem_cons_of_mem _ hd)) (fun hm => hr (List.mem_cons_of_mem _ hm))

/-- A line of text, before the end of the line. -/
theorem Shape.line {l out : Str} (h : Shape M out) (hl : ∀ c ∈ l, isMark M c = false) (hr : RawClosed l)
    (hq : isMark M '\'' = false ∧ isMark M '"' = false) :
    (∀ q v, q = '\'' ∨ q = '"' → 'r' :: q :: v <:+ l ++ out →
      ∃ w x, v = w ++ q :: x ∧ ∀ c ∈ w, c ≠ q ∧ isMark M c = false) ∧
    (∀ c v, c :: v <:+ l ++ out → isMark M c = true →
      v = [] ∨ ∃ d v', v = d :: v' ∧ (isMark M d = true ∨ d = '\n')) := by
  induction l with
  | nil => exact ⟨h.raw, h.marks⟩
  | cons e l ih =>
    have ih := ih (fun d hd => hl d (List.mem_cons_of_mem _ hd))
      (fun u q v hu => hr (e :: u) q v (by rw [hu]; rfl))
    constructor
    · intro q v hqq hv
      rcases List.suffix_cons_iff.1 hv with he | hv
      · simp only [List.cons.injEq] at he
        obtain ⟨rfl, he⟩ := he
        cases l with
        | nil =>
          exfalso
          have := h.head q (by rw [show out = q :: v from he.symm]; rfl)
          rcases hqq with rfl | rfl
          · rw [hq.1] at this; simp at this
          · rw [hq.2] at this; simp at this
        | cons q' l =>
          obtain ⟨rfl, rfl⟩ : q = q' ∧ v = l ++ out := by simpa using he
          have hm := hr [] q l rfl hqq
          have hsplit : ∃ w x, l = w ++ q :: x ∧ q ∉ w := List.eq_append_cons_of_mem hm
          obtain ⟨w, x, rfl, hw⟩ := hsplit
          refine ⟨w, x ++ out, by simp, fun c hc => ⟨fun e => hw (e ▸ hc), hl c (by simp [hc])⟩⟩
      · exact ih.1 q v hqq hv
    · intro c v hv hc
      rcases List.suffix_cons_iff.1 hv with hv | hv
      · simp only [List.cons.injEq] at hv
        rw [hv.1, hl e List.mem_cons_self] at hc
        cases hc
      · exact ih.2 c v hv hc

theorem RawClosed.strip {l : Str} (h : RawClosed l) : RawClosed (lstrip (rstrip l)) := by
  intro u q v hu hq
  obtain ⟨post, hp, hs⟩ := rstrip_append l
  obtain ⟨pre, hpre⟩ := List.dropWhile_suffix isSpace (l := rstrip l)
  have hpre : pre ++ lstrip (rstrip l) = rstrip l := hpre
  have := h (pre ++ u) q (v ++ post) (by rw [hp, ← hpre, hu]; simp) hq
  rcases List.mem_append.1 this with h | h
  · exact h
  · have hsp := hs q h
    rcases hq with rfl | rfl <;> cases hsp

section
variable {U : Uni} [hM : MarksApart M U]

include hM in
variable (U) in
theorem mark_ne {c d : Char} (hc : isMark M c = true) (hd : lowChar d = true) : c ≠ d := by
  rintro rfl
  exact lowChar.not (M := M) U hd (.inr hc)

include hM in
variable (U) in
theorem low_not_mark {d : Char} (hd : lowChar d = true) : isMark M d = false := by
  cases h : isMark M d with
  | false => rfl
  | true => exact absurd rfl (mark_ne U h hd)

include hM in
variable (U) in
theorem nl_not_mark : isMark M '\n' = false := by
  cases h : isMark M '\n' with
  | false => rfl
  | true =>
    have := hM.high _ h
    revert this
    decide

include hM in
variable (U) in
theorem enc_shape {cur : Str} {m k : Nat} {ls : List Str} (hls : ∀ l ∈ ls, ∀ c ∈ l, isMark M c = false)
    (hr : ∀ l ∈ ls, RawClosed l) {out : Str} (h : enc M cur m k ls = .ok out) : Shape M out := by
  have hmr : ∀ {s : Str}, (∀ c ∈ s, isMark M c = true) → 'r' ∉ s := by
    intro s hs hm
    have := hs _ hm
    rw [low_not_mark U rfl] at this
    cases this
  induction ls generalizing cur m k out with
  | nil =>
    simp only [enc, Except.ok.injEq] at h
    rw [← h]
    refine .eols (fun c hc => .inl (dedent_marks M cur c hc)) (hmr (dedent_marks M cur)) ?_
    rw [← List.append_nil (List.replicate m '\n')]
    refine .eols (fun c hc => .inr (List.eq_of_mem_replicate hc)) ?_ .nil
    intro hm
    have := List.eq_of_mem_replicate hm
    cases this
  | cons l ls ih =>
    simp only [enc] at h
    split at h
    · exact ih (fun x hx => hls x (List.mem_cons_of_mem _ hx)) (fun x hx => hr x (List.mem_cons_of_mem _ hx)) h
    · split at h
      · cases he : enc M (leading (rstrip l)) 0 (k + 1) ls with
        | error e => rw [he] at h; cases h
        | ok r =>
          rw [he] at h
          simp only [Except.ok.injEq] at h
          have ih := ih (fun x hx => hls x (List.mem_cons_of_mem _ hx)) (fun x hx => hr x (List.mem_cons_of_mem _ hx)) he
          have hline := ih.line (l := lstrip (rstrip l))
            (fun c hc => hls l List.mem_cons_self c (mem_rstrip (mem_lstrip hc)))
            (RawClosed.strip (hr l List.mem_cons_self)) ⟨low_not_mark U rfl, low_not_mark U rfl⟩
          have key : ∀ n, Shape M (List.replicate (n + 1) '\n' ++ (lstrip (rstrip l) ++ r)) := by
            intro n
            induction n with
            | zero =>
              refine ⟨fun c hc => by cases hc; exact .inr rfl, ?_, ?_⟩
              · intro q v hq hv
                rcases List.suffix_cons_iff.1 hv with hv | hv
                · simp at hv
                · exact hline.1 q v hq hv
              · intro c v hv hc
                rcases List.suffix_cons_iff.1 hv with hv | hv
                · simp only [List.cons.injEq] at hv
                  rw [hv.1] at hc
                  rw [nl_not_mark (M := M) U] at hc
                  cases hc
                · exact hline.2 c v hv hc
            | succ n ih => exact .eol (.inr rfl) (by decide) ih
          have := Shape.eols (u := change M cur (leading (rstrip l))) (fun c hc => .inl (change_marks M _ _ c hc))
            (hmr (change_marks M _ _)) (key m)
          rw [← h]
          simpa [List.replicate_succ] using this
      · cases h

/-- The end of an encoded text. -/
theorem enc_final {cur : Str} {m k : Nat} {ls : List Str} {l1 : Str} (hl : ls.getLast? = some l1) (hn : NonBlank l1)
    {out : Str} (h : enc M cur m k ls = .ok out) :
    ∃ z cur', out = z ++ '\n' :: (lstrip (rstrip l1) ++ dedentSymbols M cur') := by
  induction ls generalizing cur m k out with
  | nil => cases hl
  | cons l ls ih =>
    have hnext : ls = [] ∧ l = l1 ∨ ls.getLast? = some l1 := by
      cases ls with
      | nil => exact .inl ⟨rfl, by simpa using hl⟩
      | cons l' ls => exact .inr (by simpa using hl)
    simp only [enc] at h
    split at h
    · next hb =>
      rcases hnext with ⟨_, rfl⟩ | hnext
      · exact absurd hn (lstrip_rstrip_eq_nil.1 hb)
      · exact ih hnext h
    · split at h
      · cases he : enc M (leading (rstrip l)) 0 (k + 1) ls with
        | error e => rw [he] at h; cases h
        | ok r =>
          rw [he] at h
          simp only [Except.ok.injEq] at h
          rcases hnext with ⟨rfl, rfl⟩ | hnext
          · simp only [enc, List.replicate_zero, List.append_nil, Except.ok.injEq] at he
            refine ⟨change M cur (leading (rstrip l)) ++ List.replicate m '\n', leading (rstrip l), ?_⟩
            rw [← h, ← he]
            simp [replicate_nl_append]
          · obtain ⟨z, cur', hz⟩ := ih hnext he
            refine ⟨change M cur (leading (rstrip l)) ++ '\n' :: List.replicate m '\n' ++ lstrip (rstrip l) ++ z, cur', ?_⟩
            rw [← h, hz]
            simp
      · cases h

theorem rstrip_last {l : Str} {c : Char} (h : (rstrip l).getLast? = some c) : isSpace c = false := by
  rw [rstrip, List.getLast?_reverse] at h
  have := List.head?_dropWhile_not (p := isSpace) l.reverse
  rw [h] at this
  simpa using this

theorem strip_last {l : Str} {c : Char} (h : (lstrip (rstrip l)).getLast? = some c) : isSpace c = false := by
  obtain ⟨pre, hpre⟩ := List.dropWhile_suffix isSpace (l := rstrip l)
  have hpre : pre ++ lstrip (rstrip l) = rstrip l := hpre
  refine rstrip_last (l := l) ?_
  rw [← hpre, List.getLast?_append, h]
  rfl

theorem final_last (hsp : ∀ c, isMark M c = true → isSpace c = false) {l1 z cur' : Str} (hn : NonBlank l1) {c : Char}
    (h : (z ++ '\n' :: (lstrip (rstrip l1) ++ dedentSymbols M cur')).getLast? = some c) : isSpace c = false := by
  rw [List.getLast?_append] at h
  have e : ('\n' :: (lstrip (rstrip l1) ++ dedentSymbols M cur')) =
    (['\n'] ++ lstrip (rstrip l1)) ++ dedentSymbols M cur' := by simp
  rw [e, List.getLast?_append] at h
  cases hd : (dedentSymbols M cur').getLast? with
  | some d =>
    rw [hd] at h
    cases h
    exact hsp _ (dedent_marks M cur' _ (List.mem_of_getLast? hd))
  | none =>
    rw [hd, List.getLast?_append] at h
    cases hs : (lstrip (rstrip l1)).getLast? with
    | none =>
      rw [List.getLast?_eq_none_iff] at hs
      exact absurd hn (lstrip_rstrip_eq_nil.1 hs)
    | some d =>
      rw [hs] at h
      cases h
      exact strip_last hs

include hM in
variable (U) in
theorem final_ending {l1 z cur' w : Str} (hw : w ≠ []) (hlow : w.all lowChar = true)
    (h : w <:+ z ++ '\n' :: (lstrip (rstrip l1) ++ dedentSymbols M cur')) : w <:+ rstrip l1 := by
  have hw' : ∀ c ∈ w, lowChar c = true := List.all_eq_true.1 hlow
  cases hd : dedentSymbols M cur' with
  | nil =>
    rw [hd, List.append_nil] at h
    have hs : w <:+ lstrip (rstrip l1) := by
      by_cases hlen : w.length ≤ (lstrip (rstrip l1)).length
      · refine List.suffix_of_suffix_length_le h ?_ hlen
        exact ⟨z ++ ['\n'], by simp⟩
      · have : '\n' :: lstrip (rstrip l1) <:+ w :=
          List.suffix_of_suffix_length_le ⟨z, rfl⟩ h (by simp; omega)
        have := hw' '\n' (this.subset List.mem_cons_self)
        cases this
    exact hs.trans (List.dropWhile_suffix _)
  | cons d ds =>
    exfalso
    have hne : dedentSymbols M cur' ≠ [] := by rw [hd]; simp
    obtain ⟨u, hu⟩ := h
    have h1 := congrArg List.getLast? hu
    have e : z ++ '\n' :: (lstrip (rstrip l1) ++ dedentSymbols M cur') =
      (z ++ '\n' :: lstrip (rstrip l1)) ++ dedentSymbols M cur' := by simp
    rw [e, List.getLast?_append, List.getLast?_append, List.getLast?_eq_some_getLast hw,
      List.getLast?_eq_some_getLast hne] at h1
    simp only [Option.some_or, Option.some.injEq] at h1
    have h2 := dedent_marks M cur' _ (List.getLast_mem hne)
    rw [← h1, low_not_mark U (hw' _ (List.getLast_mem hw))] at h2
    cases h2

/-- Marks of a text that closes what it opens. -/
theorem brackets_net (hd : Marks.Distinct M) : ∀ (s : Str) (st st' : List Kind), brackets M st s = some st' →
    net M s = (st.length : Int) - st'.length := by
  simp only [Marks.Distinct, List.nodup_cons, List.mem_cons, List.not_mem_nil, or_false, not_or, not_false_eq_true,
    and_true, List.nodup_nil] at hd
  obtain ⟨⟨d1, d2, d3⟩, ⟨d4, d5⟩, d6⟩ := hd
  intro s
  induction s with
  | nil =>
    intro st st' h
    simp only [brackets, Option.some.injEq] at h
    rw [h]
    simp [net]
  | cons c s ih =>
    intro st st' h
    simp only [brackets] at h
    split at h
    · next hc =>
      subst hc
      have := ih _ _ h
      simp only [net, d1, d3, or_self, true_or, if_true, if_false, List.length_cons] at this ⊢
      omega
    · next n1 =>
      split at h
      · next hc =>
        subst hc
        have := ih _ _ h
        simp only [net, Ne.symm d4, d6, or_self, or_true, if_true, if_false, List.length_cons] at this ⊢
        omega
      · next n2 =>
        split at h
        · next hc =>
          subst hc
          split at h
          · have := ih _ _ h
            simp only [net, true_or, if_true, List.length_cons] at this ⊢
            omega
          · cases h
        · next n3 =>
          split at h
          · next hc =>
            subst hc
            split at h
            · have := ih _ _ h
              simp only [net, or_true, if_true, List.length_cons] at this ⊢
              omega
            · cases h
          · next n4 =>
            have := ih _ _ h
            simp only [net, n1, n2, n3, n4, or_self, if_false] at this ⊢
            omega

theorem brackets_suffix (hd : Marks.Distinct M) {s r : Str} (h : brackets M [] s = some []) (hr : r <:+ s) :
    0 ≤ net M r := by
  obtain ⟨u, rfl⟩ := hr
  rw [brackets_append] at h
  cases hu : brackets M [] u with
  | none => rw [hu] at h; cases h
  | some st =>
    rw [hu] at h
    have := brackets_net hd r st [] h
    simp at this
    omega

end
end
end Verif
