import Verif.Lemmas.JoiningLoad
import Verif.Props.Faults

/-! C109: scripts can be put together. -/

namespace Verif
open Py Spec

section
variable {M : Marks} {U : Uni}

theorem join_append {as bs : List Str} (ha : as ≠ []) (hb : bs ≠ []) :
    join ['\n'] (as ++ bs) = join ['\n'] as ++ '\n' :: join ['\n'] bs := by
  induction as with
  | nil => exact absurd rfl ha
  | cons a as ih =>
    cases as with
    | nil =>
      cases bs with
      | nil => exact absurd rfl hb
      | cons b bs => simp [join]
    | cons a' as =>
      have := ih (by simp)
      simp only [List.cons_append, join] at this ⊢
      rw [this]
      simp

theorem lines_append (s1 s2 : Str) : lines (s1 ++ '\n' :: s2) = lines s1 ++ lines s2 := by
  refine lines_unique _ _ (by simp [lines_ne_nil]) ?_ ?_
  · intro l hl
    rcases List.mem_append.1 hl with h | h
    · exact not_mem_lines h
    · exact not_mem_lines h
  · rw [join_append (lines_ne_nil s1) (lines_ne_nil s2)]
    simp only [lines, join_split]

theorem enc_head {cur : Str} {m k : Nat} {ls : List Str} {out : Str} (h : enc M cur m k ls = .ok out) {c : Char}
    (hc : out.head? = some c) : isMark M c = true ∨ c = '\n' := by
  have key : ∀ {u v : Str} {c : Char}, (∀ c ∈ u, isMark M c = true) → (∀ c, v.head? = some c → c = '\n') →
      (u ++ v).head? = some c → isMark M c = true ∨ c = '\n' := by
    intro u v c hu hv hc
    cases u with
    | nil => exact .inr (hv c hc)
    | cons d u => cases hc; exact .inl (hu _ List.mem_cons_self)
  induction ls generalizing m k out with
  | nil =>
    simp only [enc, Except.ok.injEq] at h
    rw [← h] at hc
    refine key (dedent_marks M cur) ?_ hc
    intro c hc
    exact List.eq_of_mem_replicate (List.mem_of_mem_head? hc)
  | cons l ls ih =>
    simp only [enc] at h
    split at h
    · exact ih h hc
    · split at h
      · cases he : enc M (leading (rstrip l)) 0 (k + 1) ls with
        | error e => rw [he] at h; cases h
        | ok r =>
          rw [he] at h
          simp only [Except.ok.injEq] at h
          rw [← h, List.append_assoc, List.append_assoc] at hc
          refine key (change_marks M _ _) ?_ hc
          intro c hc
          cases hc
          rfl
      · cases h

variable [hM : MarksApart M U]

include hM in
variable (U) in
theorem low_prefix {w s r : Str} (hw : w.all lowChar = true) (hr : ∀ c, r.head? = some c → isMark M c = true ∨ c = '\n')
    (h : w <+: s ++ r) : w <+: s := by
  induction w generalizing s with
  | nil => exact List.nil_prefix
  | cons c w ih =>
    simp only [List.all_cons, Bool.and_eq_true] at hw
    cases s with
    | nil =>
      exfalso
      obtain ⟨z, hz⟩ := h
      have := hr c (by rw [show r = c :: (w ++ z) from hz.symm]; rfl)
      rcases this with h | rfl
      · rw [low_not_mark U hw.1] at h; cases h
      · cases hw.1
    | cons d s =>
      simp only [List.cons_append, List.cons_prefix_cons] at h ⊢
      exact ⟨h.1, ih hw.2 h.2⟩

theorem joined (hsp : ∀ c, isMark M c = true → isSpace c = false) {s1 s2 l0 l1 l2 A B : Str}
    {t1 t2 : PTree NT} (hu1 : Usable M s1)
    (h0 : firstLine s1 = some l0 ∧ leading l0 = []) (h2 : firstLine s2 = some l2 ∧ leading l2 = [])
    (h1 : (lines s1).getLast? = some l1 ∧ NonBlank l1) (hr : ∀ l ∈ lines s1, RawClosed l)
    (hc : ¬ Continues l1 l2)
    (hA : preprocess M s1 = .ok A) (hB : preprocess M s2 = .ok B)
    (p1 : parse M U A = .ok t1) (p2 : parse M U B = .ok t2) :
    preprocess M (s1 ++ '\n' :: s2) = .ok (A ++ B) ∧ M.indentS ≠ '\n' ∧ M.indentT ≠ '\n' ∧ (∃ A', A = '\n' :: A') ∧ (∃ B', B = '\n' :: B') ∧
      ∃ rest, (∀ c ∈ rest, c = '\n') ∧ BlockSeries M U A (topBlocks t1) [] ∧ BlockSeries M U B (topBlocks t2) rest ∧
        BlockSeries M U (A ++ B) (topBlocks t1 ++ topBlocks t2) rest := by
  have hbal := hA
  rw [preprocess_eq_enc] at hA hB hbal
  have hj : preprocess M (s1 ++ '\n' :: s2) = .ok (A ++ B) := by
    rw [preprocess_eq_enc, lines_append]
    exact enc_append h2.1 h2.2 hB (.inl ⟨l1, h1⟩) hA
  refine ⟨hj, ?_⟩
  obtain ⟨⟨m, r, k, rfl, bs, hbs⟩, _⟩ := enc_first h2.1 h2.2 hB
  obtain ⟨⟨m0, r0, _, hA0, _⟩, _⟩ := enc_first h0.1 h0.2 hA
  have n0 : NonBlank l0 := by simpa using List.find?_some h0.1
  have n2 : NonBlank l2 := by simpa using List.find?_some h2.1
  obtain ⟨c0, x0, e0, s0⟩ := lstrip_not_blank (fun e => lstrip_rstrip_eq_nil.1 e n0)
  obtain ⟨c2, x2, e2, s2'⟩ := lstrip_not_blank (fun e => lstrip_rstrip_eq_nil.1 e n2)
  have hnl0 : c0 ≠ '\n' := by rintro rfl; cases s0
  have hnl2 : c2 ≠ '\n' := by rintro rfl; cases s2'
  have hone : ∀ c, isMark M c = true → c ≠ '\n' := by
    rintro c hc rfl
    rw [nl_not_mark U] at hc
    cases hc
  have m1 : M.indentS ≠ '\n' := hone _ (by simp [isMark])
  have m2 : M.indentT ≠ '\n' := hone _ (by simp [isMark])
  -- the second text
  have hrh : ∀ c, r.head? = some c → isMark M c = true ∨ c = '\n' := fun c hc => enc_head hbs hc
  have hl2 : ∀ {w : Str}, w.all lowChar = true → w <+: lstrip (rstrip l2) ++ r → w <+: l2 := by
    intro w hw hp
    have hp := low_prefix U hw hrh hp
    have he : lstrip (rstrip l2) = rstrip l2 := by
      have := leading_append_lstrip (rstrip l2)
      rw [leading_rstrip n2, h2.2] at this
      exact this
    rw [he] at hp
    obtain ⟨post, hpost, _⟩ := rstrip_append l2
    rw [hpost]
    exact hp.trans (List.prefix_append _ _)
  have dn : ∀ p : Char → Bool, p '\n' = true → p c2 = false →
      (List.replicate m '\n' ++ (lstrip (rstrip l2) ++ r)).dropWhile p = lstrip (rstrip l2) ++ r := by
    intro p hp hp2
    have : ∀ n, (List.replicate n '\n' ++ (lstrip (rstrip l2) ++ r)).dropWhile p = lstrip (rstrip l2) ++ r := by
      intro n
      induction n with
      | zero => rw [e2]; simp [hp2]
      | succ n ih => rw [List.replicate_succ, List.cons_append, List.dropWhile_cons, if_pos hp]; exact ih
    exact this m
  have dsp := dn isSpace (by decide) s2'
  have dnl := dn (· == '\n') (by decide) (by simpa using hnl2)
  simp only [Continues, not_or, not_and] at hc
  obtain ⟨g1, g2, g3, g4⟩ := hc
  have hT : Ending (List.replicate m '\n' ++ (lstrip (rstrip l2) ++ r)) := by
    constructor
    · rw [dnl]; exact fun h => g1 (hl2 rfl h)
    · rw [dnl]; exact fun h => g2 (hl2 rfl h)
  -- the first text
  have hm1 : ∀ l ∈ lines s1, ∀ c ∈ l, isMark M c = false := fun l hl c hc => hu1.fresh c (mem_of_mem_lines hl hc)
  have hshape := enc_shape U hm1 hr hA
  have hbr : brackets M [] A = some [] := by
    have := enc_brackets hM.distinct (nl_not_mark U) [] 0 0 (lines s1) hm1 A hA
    simpa [kinds] using this
  obtain ⟨z, cur', hz⟩ := enc_final h1.1 h1.2 hA
  have hf : Joinable M (List.replicate m '\n' ++ (lstrip (rstrip l2) ++ r)) A := by
    refine ⟨?_, fun x hx => brackets_suffix hM.distinct hbr hx, hshape.raw, hshape.marks, ?_, ?_⟩
    · intro c hc
      rw [hz] at hc
      exact final_last hsp h1.2 hc
    · intro hx hy
      rw [hz] at hx
      rw [dsp] at hy
      exact g3 (final_ending U (by simp) rfl hx) (hl2 rfl hy)
    · intro hx hy
      rw [hz] at hx
      rw [dsp] at hy
      exact g4 (final_ending U (by simp) rfl hx) (hl2 rfl hy)
  -- documents
  rw [parse_yields] at p1 p2
  have hA0' := hA0
  rw [hA0] at p1
  obtain ⟨rest1, b1, hrest1⟩ := blocks_of_document m1 m2 p1 ⟨c0, by rw [e0]; simp, hnl0⟩
  obtain ⟨rest2, b2, hrest2⟩ := blocks_of_document m1 m2 p2 ⟨c2, by rw [e2]; simp, hnl2⟩
  rw [← hA0] at b1
  have hr1 : rest1 = [] := by
    cases hx : rest1 with
    | nil => rfl
    | cons d x =>
      exfalso
      obtain ⟨f, hb⟩ := b1
      have hw := (run_whole (rule M U) f).2.2.2.2.1 (.ref .block) A
      rw [hb] at hw
      have hs : texts (topBlocks t1) ++ rest1 = A := hw.1
      have hl : A.getLast? = some ((d :: x).getLast (by simp)) := by
        rw [← hs, List.getLast?_append, hx, List.getLast?_eq_some_getLast (l := d :: x) (by simp)]
        rfl
      have h3 := hf.last _ hl
      have h4 := hrest1 _ (by rw [hx]; exact List.getLast_mem (by simp))
      rw [h4] at h3
      cases h3
  subst hr1
  exact ⟨m1, m2, ⟨_, hA0'⟩, ⟨_, rfl⟩, rest2, hrest2, b1, b2, BlockSeries.join hsp hT hf b1 b2⟩

omit hM in
theorem loaded {P : Type} {names : Str → Option Char} {s : Str} {ss : List (Stmt P)} (h : loadScript M U names s = .ok ss) :
    ∃ A t, preprocess M s = .ok A ∧ parse M U A = .ok t ∧ buildAll names A (rewrite 0 t) = .ok [.document ss] := by
  unfold loadScript at h
  split at h
  · cases h
  · next A hA =>
    split at h
    · cases h
    · next t ht =>
      split at h
      · next hb => cases h; exact ⟨A, t, hA, ht, hb⟩
      · cases h
      · cases h

/-- C109. A script is put after another one, from the next line on. Neither begins with an indented line,
the first one ends with a line that is not blank, its quotes after a letter `r` are closed in the same line,
and the first line of the second one can't be taken for a continuation of the last line of the first one. If
both are correct, then they are correct together: the encoding is the concatenation of the two, and the blocks
of the syntax tree are those of the first script followed by those of the second one. -/
theorem C109_together (hsp : ∀ c, isMark M c = true → isSpace c = false) {s1 s2 l0 l1 l2 A B : Str}
    {t1 t2 : PTree NT} (hu1 : Usable M s1)
    (h0 : firstLine s1 = some l0 ∧ leading l0 = []) (h2 : firstLine s2 = some l2 ∧ leading l2 = [])
    (h1 : (lines s1).getLast? = some l1 ∧ NonBlank l1) (hr : ∀ l ∈ lines s1, RawClosed l)
    (hc : ¬ Continues l1 l2)
    (hA : preprocess M s1 = .ok A) (hB : preprocess M s2 = .ok B)
    (p1 : parse M U A = .ok t1) (p2 : parse M U B = .ok t2) :
    preprocess M (s1 ++ '\n' :: s2) = .ok (A ++ B) ∧
      ∃ t, parse M U (A ++ B) = .ok t ∧ topBlocks t = topBlocks t1 ++ topBlocks t2 := by
  obtain ⟨hj, m1, m2, ⟨A', rfl⟩, ⟨B', rfl⟩, rest, hrest, _, _, b⟩ := joined hsp hu1 h0 h2 h1 hr hc hA hB p1 p2
  rw [List.cons_append] at b hj ⊢
  obtain ⟨t, ht, hb⟩ := document_of_blocks m1 m2 b hrest
  exact ⟨hj, t, parse_yields.2 ht, hb⟩

/-- C109. The statements of the two scripts are those of the first one followed by those of the second one. The
positions of definitions, which are their identities, are moved by the length of the encoding of the first
script; nothing else depends on the position, in particular not the columns of text blocks. -/
theorem C109_statements {P : Type} (hsp : ∀ c, isMark M c = true → isSpace c = false) {names : Str → Option Char} {s1 s2 l0 l1 l2 : Str}
    {ss1 ss2 : List (Stmt P)} (hu1 : Usable M s1)
    (h0 : firstLine s1 = some l0 ∧ leading l0 = []) (h2 : firstLine s2 = some l2 ∧ leading l2 = [])
    (h1 : (lines s1).getLast? = some l1 ∧ NonBlank l1) (hr : ∀ l ∈ lines s1, RawClosed l)
    (hc : ¬ Continues l1 l2)
    (hs1 : loadScript M U names s1 = .ok ss1) (hs2 : loadScript M U names s2 = .ok ss2) :
    ∃ A, preprocess M s1 = .ok A ∧ loadScript M U names (s1 ++ '\n' :: s2) = .ok (ss1 ++ movedAll A.length ss2) := by
  obtain ⟨A, t1, hA, p1, g1⟩ := loaded hs1
  obtain ⟨B, t2, hB, p2, g2⟩ := loaded hs2
  obtain ⟨hj, m1, m2, ⟨A', rfl⟩, ⟨B', rfl⟩, rest, hrest, b1, b2, b⟩ := joined hsp hu1 h0 h2 h1 hr hc hA hB p1 p2
  refine ⟨_, hA, ?_⟩
  obtain ⟨t, ht, _⟩ := document_of_blocks m1 m2 b hrest
  obtain ⟨mg, hm⟩ := margin_all (M := M) (U := U) hrest
  obtain ⟨mg1, hm1⟩ := margin_all (M := M) (U := U) (s := []) (by simp)
  have d1 := doc_of m1 m2 b1 hm1 (parse_yields.1 p1)
  have d2 := doc_of m1 m2 b2 hm (parse_yields.1 p2)
  have d := doc_of (s := A' ++ '\n' :: B') m1 m2 b hm ht
  have := doc_joined d1 d2 d g1 g2
  unfold loadScript
  rw [hj]
  simp only
  rw [show parse M U ('\n' :: A' ++ '\n' :: B') = .ok t from parse_yields.2 ht]
  simp only
  rw [this]

end

/-! Examples. -/

section
/-- The texts of blocks of a script, or `none` if it is wrong. -/
def exBlocks (s : Str) : Option (List Str) :=
  match preprocess defaultMarks s with
  | .error _ => none
  | .ok a => (match parse defaultMarks asciiUni a with
    | .error _ => none
    | .ok t => some ((topBlocks t).map PTree.text))

/-- The second script follows from the next line on. -/
def exJoin (s1 s2 : Str) : Str := s1 ++ '\n' :: s2

-- the conditions hold for these two scripts, and the theorem gives the blocks of both
example : ∃ A B t t1 t2, preprocess defaultMarks (exJoin (s!!"ul\n  li | one") (s!!"\np | two\n")) = .ok (A ++ B) ∧
    parse defaultMarks asciiUni (A ++ B) = .ok t ∧ parse defaultMarks asciiUni A = .ok t1 ∧
    parse defaultMarks asciiUni B = .ok t2 ∧ topBlocks t = topBlocks t1 ++ topBlocks t2 := by
  have _ := defaultMarks_apart
  obtain ⟨A, hA, t1, p1⟩ : ∃ A, preprocess defaultMarks (s!!"ul\n  li | one") = .ok A ∧
      ∃ t1, parse defaultMarks asciiUni A = .ok t1 := by
    have h : exBlocks (s!!"ul\n  li | one") ≠ none := by decide +kernel
    unfold exBlocks at h
    split at h
    · exact absurd rfl h
    · split at h
      · exact absurd rfl h
      · exact ⟨_, by assumption, _, by assumption⟩
  obtain ⟨B, hB, t2, p2⟩ : ∃ A, preprocess defaultMarks (s!!"\np | two\n") = .ok A ∧
      ∃ t1, parse defaultMarks asciiUni A = .ok t1 := by
    have h : exBlocks (s!!"\np | two\n") ≠ none := by decide +kernel
    unfold exBlocks at h
    split at h
    · exact absurd rfl h
    · split at h
      · exact absurd rfl h
      · exact ⟨_, by assumption, _, by assumption⟩
  have hraw : ∀ l ∈ lines (s!!"ul\n  li | one"), RawClosed l := by
    intro l hl u q v h _
    have : 'r' ∈ l := by rw [h]; simp
    have : ∀ l ∈ lines (s!!"ul\n  li | one"), 'r' ∉ l := by decide
    exact absurd ‹'r' ∈ l› (this l hl)
  have hu : Usable defaultMarks (s!!"ul\n  li | one") := ⟨defaultMarks_apart.distinct, by decide, by decide⟩
  have hsp : ∀ c, isMark defaultMarks c = true → isSpace c = false := by
    intro c hc
    have : c = '❨' ∨ c = '❩' ∨ c = '❪' ∨ c = '❫' := by simpa [isMark, defaultMarks, or_assoc] using hc
    rcases this with rfl | rfl | rfl | rfl <;> decide
  obtain ⟨h, t, ht, hb⟩ := C109_together hsp hu (l0 := s!!"ul") (l1 := s!!"  li | one") (l2 := s!!"p | two")
    (by decide) (by decide) (by decide) hraw (by unfold Continues; decide) hA hB p1 p2
  exact ⟨A, B, t, t1, t2, h, ht, p1, p2, hb⟩

example : exBlocks (exJoin (s!!"ul\n  li | one") (s!!"\np | two\n")) =
    some [s!!"\nul❨❨\nli | one❩❩", s!!"\n\np | two"] := by decide +kernel
example : exBlocks (s!!"ul\n  li | one") = some [s!!"\nul❨❨\nli | one❩❩"] := by decide +kernel
example : exBlocks (s!!"\np | two\n") = some [s!!"\n\np | two"] := by decide +kernel
-- a line `else` becomes a clause of the statement before
example : exBlocks (exJoin (s!!"if x\n  p | one") (s!!"else\n  p | two")) =
    some [s!!"\nif x❨❨\np | one❩❩\nelse❨❨\np | two❩❩"] := by decide +kernel

/-- The identities of the definitions of a script, and the columns of its top-level text blocks. -/
def exPlaces (s : Str) : Option (List DefId × List Nat) :=
  match loadScript (P := Unit) defaultMarks asciiUni (fun _ => none) s with
  | .error _ => none
  | .ok ss => some ((Stmt.defsAll ss).map Prod.fst, ss.filterMap (fun s => match s with
    | .xblock _ _ (.text c _) => some c
    | _ => none))

-- the definition of the second script is moved by the length of the first one, the columns of texts are as before
example : exPlaces (s!!"% h x\n  p | $x\n|one") = some ([1], [1]) := by decide +kernel
example : exPlaces (s!!"\n% k\n  p | two\n<  | three") = some ([2], [4]) := by decide +kernel
example : exPlaces (exJoin (s!!"% h x\n  p | $x\n|one") (s!!"\n% k\n  p | two\n<  | three")) = some ([1, 24], [1, 4]) := by decide +kernel
example : (preprocess defaultMarks (s!!"% h x\n  p | $x\n|one")).toOption.map List.length = some 22 := by decide +kernel

-- the conditions of `C109_statements` hold for these scripts
example : ∃ A ss1 ss2, preprocess defaultMarks (s!!"% h\n  p | one\nh") = .ok A ∧
    loadScript (P := Unit) defaultMarks asciiUni (fun _ => none) (s!!"% k\n  p | two\nk") = .ok ss2 ∧
    loadScript (P := Unit) defaultMarks asciiUni (fun _ => none) (exJoin (s!!"% h\n  p | one\nh") (s!!"% k\n  p | two\nk")) =
      .ok (ss1 ++ movedAll A.length ss2) := by
  have _ := defaultMarks_apart
  have get : ∀ s, exPlaces s ≠ none → ∃ ss, loadScript (P := Unit) defaultMarks asciiUni (fun _ => none) s = .ok ss := by
    intro s h
    unfold exPlaces at h
    split at h
    · exact absurd rfl h
    · exact ⟨_, by assumption⟩
  obtain ⟨ss1, g1⟩ := get (s!!"% h\n  p | one\nh") (by decide +kernel)
  obtain ⟨ss2, g2⟩ := get (s!!"% k\n  p | two\nk") (by decide +kernel)
  have hraw : ∀ l ∈ lines (s!!"% h\n  p | one\nh"), RawClosed l := by
    intro l hl u q v h _
    have : 'r' ∈ l := by rw [h]; simp
    have : ∀ l ∈ lines (s!!"% h\n  p | one\nh"), 'r' ∉ l := by decide
    exact absurd ‹'r' ∈ l› (this l hl)
  have hu : Usable defaultMarks (s!!"% h\n  p | one\nh") := ⟨defaultMarks_apart.distinct, by decide, by decide⟩
  have hsp : ∀ c, isMark defaultMarks c = true → isSpace c = false := by
    intro c hc
    have : c = '❨' ∨ c = '❩' ∨ c = '❪' ∨ c = '❫' := by simpa [isMark, defaultMarks, or_assoc] using hc
    rcases this with rfl | rfl | rfl | rfl <;> decide
  obtain ⟨A, hA, h⟩ := C109_statements hsp hu (l0 := s!!"% h") (l1 := s!!"h") (l2 := s!!"% k")
    (by decide) (by decide) (by decide) hraw (by unfold Continues; decide) g1 g2
  exact ⟨A, ss1, ss2, hA, g2, h⟩

/-- C109, the condition on the second script is needed also for tags: `elsewhere` is a correct name of a tag,
but after a block `if` its first letters are taken for the keyword `else`. Each of the two scripts is correct,
the two together are not. -/
theorem C109_else_taken : ∃ s1 s2, (exBlocks s1).isSome ∧ (exBlocks s2).isSome ∧ exBlocks (exJoin s1 s2) = none ∧
    Name (s!!"elsewhere") ∧ s2 = s!!"elsewhere | two" :=
  ⟨s!!"if x\n  p | one", s!!"elsewhere | two", by decide +kernel, by decide +kernel, by decide +kernel,
    ⟨⟨'e', s!!"lsewhere", rfl, by decide, by decide⟩, by decide, by decide⟩, rfl⟩

end

end Verif
