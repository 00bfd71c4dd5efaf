import Verif.Props.Joining
import Verif.Lemmas.Shows
import Verif.Props.Safety

/-! C119: blank lines at the end of a script. -/

namespace Verif
open Py Spec

section
variable {M : Marks} {U : Uni}

/-- Blank lines at the end are encoded as newlines after all groups. -/
theorem enc_blankEnd {ls1 ls2 : List Str} (h2 : ∀ l ∈ ls2, ¬ NonBlank l) {cur : Str} {m k : Nat} {A : Str}
    (hA : enc M cur m k ls1 = .ok A) : enc M cur m k (ls1 ++ ls2) = .ok (A ++ List.replicate ls2.length '\n') := by
  induction ls1 generalizing cur m k A with
  | nil =>
    have := enc_blankLines (M := M) cur m k ls2 [] h2
    rw [List.append_nil] at this
    rw [List.nil_append, this]
    simp only [enc, Except.ok.injEq] at hA ⊢
    rw [← hA, List.append_assoc, List.replicate_append_replicate]
  | cons l ls ih =>
    simp only [List.cons_append, enc] at hA ⊢
    split at hA
    · next hb => rw [if_pos hb]; exact ih hA
    · next hb =>
      rw [if_neg hb]
      split at hA
      · next hc =>
        rw [if_pos hc]
        cases he : enc M (leading (rstrip l)) 0 (k + 1) ls with
        | error e => rw [he] at hA; cases hA
        | ok r =>
          rw [he] at hA
          rw [ih he]
          simp only [Except.ok.injEq] at hA ⊢
          rw [← hA]
          simp
      · cases hA

/-- What is not nullable fails at the end of the text. -/
theorem fails_nil {p : Peg NT} (h : p.nullable nulRule = false) : Fails (rule M U) p [] := by
  rcases (rule_noLeftRec M U).total p [] with ⟨t, rest, f, hf⟩ | hf
  · have := (run_emptyOnly (G := rule M U) (rule_nullable M U) f).1 p []
    rw [hf] at this
    exact absurd (this h) (by simp)
  · exact hf

/-- There is no block in a text of newlines. -/
theorem block_newlines {s : Str} (hs : ∀ c ∈ s, c = '\n') : Fails (rule M U) (.ref .block) ('\n' :: s) := by
  obtain ⟨c, hc⟩ := nl_rest (M := M) U s
  rw [dropNl_nil.2 hs] at hc
  obtain ⟨c', r, ho⟩ := (rule_noLeftRec M U).opt (.seq [.ref .modifier, .ref .ws]) []
  have hr : r = [] := by
    obtain ⟨f, hf⟩ := ho
    have := run_length (rule M U) hf
    exact List.eq_nil_of_length_eq_zero (by simpa using this)
  subst hr
  refine .ref (.seq (.tail (.ref (.seq (.cons hc (.cons (.lit [] []) (.nil _))))) (.tail ho (.head ?_))))
  exact fails_nil rfl

variable [hM : MarksApart M U]

/-- The blocks of a script, alone and before blank lines. -/
theorem ended (hsp : ∀ c, isMark M c = true → isSpace c = false) {s blank l0 l1 A : Str} {t : PTree NT}
    (hu : Usable M s) (h0 : firstLine s = some l0 ∧ leading l0 = [])
    (h1 : (lines s).getLast? = some l1 ∧ NonBlank l1) (hr : ∀ l ∈ lines s, RawClosed l)
    (hb : ∀ l ∈ lines blank, ¬ NonBlank l) (hA : preprocess M s = .ok A) (p : parse M U A = .ok t) :
    preprocess M (s ++ '\n' :: blank) = .ok (A ++ List.replicate (lines blank).length '\n') ∧
      M.indentS ≠ '\n' ∧ M.indentT ≠ '\n' ∧ (∃ A', A = '\n' :: A') ∧
      BlockSeries M U A (topBlocks t) [] ∧
      BlockSeries M U (A ++ List.replicate (lines blank).length '\n') (topBlocks t)
        (List.replicate (lines blank).length '\n') := by
  rw [preprocess_eq_enc] at hA
  refine ⟨?_, ?_⟩
  · rw [preprocess_eq_enc, lines_append]
    exact enc_blankEnd hb hA
  obtain ⟨⟨m0, r0, _, hA0, _⟩, _⟩ := enc_first h0.1 h0.2 hA
  have n0 : NonBlank l0 := by simpa using List.find?_some h0.1
  obtain ⟨c0, x0, e0, s0⟩ := lstrip_not_blank (fun e => lstrip_rstrip_eq_nil.1 e n0)
  have hnl0 : c0 ≠ '\n' := by rintro rfl; cases s0
  have hone : ∀ c, isMark M c = true → c ≠ '\n' := by
    rintro c hc rfl
    rw [nl_not_mark U] at hc
    cases hc
  have m1 : M.indentS ≠ '\n' := hone _ (by simp [isMark])
  have m2 : M.indentT ≠ '\n' := hone _ (by simp [isMark])
  obtain ⟨k, hk⟩ : ∃ k, (lines blank).length = k + 1 := by
    cases hl : lines blank with
    | nil => exact absurd hl (lines_ne_nil blank)
    | cons a l => exact ⟨l.length, rfl⟩
  rw [hk, List.replicate_succ]
  have hnl : ∀ c ∈ List.replicate k '\n', c = '\n' := fun c hc => List.eq_of_mem_replicate hc
  have dsp : (List.replicate k '\n').dropWhile isSpace = [] := by
    clear hk hnl
    induction k with
    | zero => rfl
    | succ k ih => rw [List.replicate_succ, List.dropWhile_cons, if_pos (by decide)]; exact ih
  have hT : Ending (List.replicate k '\n') := by
    constructor <;> rw [dropNl_nil.2 hnl] <;> simp
  have hm1 : ∀ l ∈ lines s, ∀ c ∈ l, isMark M c = false := fun l hl c hc => hu.fresh c (mem_of_mem_lines hl hc)
  have hshape := enc_shape U hm1 hr hA
  have hbr : brackets M [] A = some [] := by
    have := enc_brackets hM.distinct (nl_not_mark U) [] 0 0 (lines s) hm1 A hA
    simpa [kinds] using this
  obtain ⟨z, cur', hz⟩ := enc_final h1.1 h1.2 hA
  have hf : Joinable M (List.replicate k '\n') A := by
    refine ⟨?_, fun x hx => brackets_suffix hM.distinct hbr hx, hshape.raw, hshape.marks, ?_, ?_⟩
    · intro c hc
      rw [hz] at hc
      exact final_last hsp h1.2 hc
    · intro _ hy
      rw [dsp] at hy
      simp at hy
    · intro _ hy
      rw [dsp] at hy
      simp at hy
  rw [parse_yields] at p
  have hA0' := hA0
  rw [hA0] at p
  obtain ⟨rest1, b1, hrest1⟩ := blocks_of_document m1 m2 p ⟨c0, by rw [e0]; simp, hnl0⟩
  rw [← hA0] at b1
  have hr1 : rest1 = [] := by
    cases hx : rest1 with
    | nil => rfl
    | cons d x =>
      exfalso
      obtain ⟨f, hb⟩ := b1
      have hw := (run_whole (rule M U) f).2.2.2.2.1 (.ref .block) A
      rw [hb] at hw
      have hs : texts (topBlocks t) ++ rest1 = A := hw.1
      have hl : A.getLast? = some ((d :: x).getLast (by simp)) := by
        rw [← hs, List.getLast?_append, hx, List.getLast?_eq_some_getLast (l := d :: x) (by simp)]
        rfl
      have h3 := hf.last _ hl
      have h4 := hrest1 _ (by rw [hx]; exact List.getLast_mem (by simp))
      rw [h4] at h3
      cases h3
  subst hr1
  refine ⟨m1, m2, ⟨_, hA0'⟩, b1, ?_⟩
  obtain ⟨c, cs', hc⟩ := b1.cons
  obtain ⟨f, b1⟩ := b1.more
  have := more_join hsp hT (.nil (block_newlines hnl)) f A _ hf b1
  rw [hc, List.append_nil] at this
  rw [hc]
  exact this.series

/-- C119. Blank lines after the last line of a script are kept as such: they are loaded as one further
statement, with a newline for each of them, and the rest of the script is loaded as without them. -/
theorem C119_loaded {P : Type} (hsp : ∀ c, isMark M c = true → isSpace c = false) {names : Str → Option Char}
    {s blank l0 l1 : Str} {ss : List (Stmt P)} (hu : Usable M s) (h0 : firstLine s = some l0 ∧ leading l0 = [])
    (h1 : (lines s).getLast? = some l1 ∧ NonBlank l1) (hr : ∀ l ∈ lines s, RawClosed l)
    (hb : ∀ l ∈ lines blank, ¬ NonBlank l) (hs : loadScript M U names s = .ok ss) :
    loadScript M U names (s ++ '\n' :: blank) =
      .ok (ss ++ [.static (List.replicate (lines blank).length '\n')]) := by
  obtain ⟨A, t, hA, p, g⟩ := loaded hs
  obtain ⟨hj, m1, m2, ⟨A', rfl⟩, b1, b⟩ := ended hsp hu h0 h1 hr hb hA p
  obtain ⟨k, hk⟩ : ∃ k, (lines blank).length = k + 1 := by
    cases hl : lines blank with
    | nil => exact absurd hl (lines_ne_nil blank)
    | cons a l => exact ⟨l.length, rfl⟩
  rw [hk] at b hj ⊢
  have hnl : ∀ c ∈ List.replicate (k + 1) '\n', c = '\n' := fun c hc => List.eq_of_mem_replicate hc
  obtain ⟨t', ht, _⟩ := document_of_blocks m1 m2 b hnl
  obtain ⟨mg1, hm1⟩ := margin_all (M := M) (U := U) (s := []) (by simp)
  have hrx : reNl.match? (List.replicate (k + 1) '\n') = some [] := by
    simp only [RE.match?, reNl, RE.many1, RE.rests, List.replicate_succ, beq_self_eq_true, if_true, List.flatMap_cons,
      List.flatMap_nil, List.append_nil]
    rw [manyRests_head, dropNl_nil.2 (fun c hc => List.eq_of_mem_replicate hc)]
  have hm : Yields (rule M U) (.opt (.ref .margin)) (List.replicate (k + 1) '\n') _ [] :=
    .opt_some (.ref (.seq (.cons (.ref (.rx hrx)) (.cons (.lit [] []) (.nil _)))))
  have d1 := doc_of m1 m2 b1 hm1 (parse_yields.1 p)
  have d := doc_of (s := A' ++ List.replicate (k + 1) '\n') m1 m2 b hm ht
  obtain ⟨as, bs, r, a1, a2, a3, rfl⟩ := (doc_children d1).1 g
  have w1 : texts (topBlocks t) = '\n' :: A' := by simpa using d1.2.1.derives.2
  have hmg : mg1 = .node none [] [] := by
    have : Yields (rule M U) (.opt (.ref .margin)) [] _ [] := .opt_none (.ref (.seq (.head (.ref (.rx rfl)))))
    exact (d1.1.unique this).1
  subst hmg
  have : r = [] := by
    simp only [rewrite, rewrites, buildAll, Except.ok.injEq] at a2
    subst a2
    cases a3
    rfl
  subst this
  have key : buildAll names ('\n' :: A' ++ List.replicate (k + 1) '\n') (rewrite 0 t') =
      .ok [.document (as ++ [] ++ [.static (List.replicate (k + 1) '\n')])] := by
    refine (doc_children d).2 ⟨as, [.str .margin (List.replicate (k + 1) '\n')], [.static (List.replicate (k + 1) '\n')],
      ?_, ?_, ?_, by simp⟩
    · have := blocks_within d1.2.1.derives.1 0
      simp only [w1, Nat.zero_add] at this
      rw [List.replicate_succ, buildAll_before ('\n' :: A') _ _ (RTree.withinAll.mono (Nat.zero_le _) (Nat.le_refl _) this)]
      exact a1
    · simp only [rewrite, rewrites, PTree.rename, isIgnored, isReduced, Bool.false_eq_true, if_false, if_true, compactNode, isCompact,
        List.append_nil, consumed, buildAll, build, List.length_nil, Nat.sub_zero, List.take_length]
      rfl
    · rfl
  unfold loadScript
  rw [hj]
  simp only
  rw [show parse M U ('\n' :: A' ++ List.replicate (k + 1) '\n') = .ok t' from parse_yields.2 ht]
  simp only
  rw [key]

end

section
variable {P X W I : Type}

/-- C119. The further statement has no influence on the analysis: the script has the same faults, the same slots
and the same exported symbols. -/
theorem C119_analysed (src : Source P I) (first : Slot) (g : Dict Str (Val P)) (ss : List (Stmt P)) (m : Str) :
    analyseDocument src first g (ss ++ [.static m]) =
      (analyseDocument src first g ss).map (fun d => { d with children := d.children ++ [.static m] }) := by
  unfold analyseDocument
  cases valueSlots (I := I) g { next := first } with
  | error e => rfl
  | ok x =>
    show (analyseAll src (ss ++ [.static m]) x.2 >>= _) = Except.map _ (analyseAll src ss x.2 >>= _)
    rw [analyseAll_append]
    cases analyseAll src ss x.2 <;> rfl

/-- C119. It is translated to one text after the other nodes. -/
theorem C119_translated (E : Env P X W) (σ : StateId) (ss : List (Stmt P)) (m : Str) (hm : m ≠ []) :
    translAll E σ (ss ++ [.static m]) = (do
      let ns ← translAll E σ ss
      let r ← newText m .none
      return ns ++ [r]) := by
  rw [translAll_append]
  simp only [translAll, transl]
  match m, hm with
  | c :: m, _ => simp only [translStatic, Comp.bind_assoc, Comp.pure_bind, nodesOf, List.append_nil]

/-- C119. So the text of the document ends with a newline for each blank line, if there is any text before. -/
theorem C119_rendered (ext : Nat → Except RenderErr Str → List AttrVal → List (Str × AttrVal) → Except RenderErr Str)
    (body : List Node) (t m : Str) (h : renderNodes ext body = .ok t) (ht : t ≠ []) :
    renderNode ext (.mk .root none none none (body ++ [.mk (.text m) none none none [] false none]) false (some [])) =
      (renderNode ext (.mk .root none none none body false (some []))).map (· ++ m) := by
  have key : ∀ (ns : List Node) (t : Str), renderNodes ext ns = .ok t →
      renderNodes ext (ns ++ [.mk (.text m) none none none [] false none]) = .ok (t ++ m) := by
    intro ns
    induction ns with
    | nil =>
      intro t h
      cases h
      simp [renderNodes, renderNode, renderBody, applyIndent, bind, Except.bind, pure, Except.pure]
    | cons n ns ih =>
      intro t h
      simp only [renderNodes] at h
      cases h1 : renderNode ext n with
      | error e => rw [h1] at h; cases h
      | ok a =>
        cases h2 : renderNodes ext ns with
        | error e => rw [h1, h2] at h; cases h
        | ok b =>
          rw [h1, h2] at h
          cases h
          simp [renderNodes, h1, ih b h2, bind, Except.bind, pure, Except.pure]
  match t, ht with
  | c :: t, _ =>
    simp only [renderNode, renderBody, h, key body _ h]
    simp only [applyIndent, addIndent, List.take_nil, bind, Except.bind, pure, Except.pure, Except.map, if_true, dropLine, startsWith]
    simp only [List.cons_append, List.nil_append, Bool.false_eq_true, if_false]
    rw [if_neg (by simp)]
    by_cases hc : c = '\n'
    · subst hc; simp
    · simp [Ne.symm hc]

end

section
attribute [local instance] defaultMarks_apart

/-- The statements of a script. -/
def endEx : Str := s!!"ul\n  li | one\n  li | two"

-- the conditions hold, for three lines at the end, two of them with blanks
example (ss : List (Stmt Unit)) (h : loadScript defaultMarks asciiUni (fun _ => none) endEx = .ok ss) :
    loadScript defaultMarks asciiUni (fun _ => none) (endEx ++ '\n' :: s!!"  \n\n\t") = .ok (ss ++ [.static (s!!"\n\n\n")]) := by
  have hraw : ∀ l ∈ lines endEx, RawClosed l := by
    intro l hl u q v h _
    have : 'r' ∈ l := by rw [h]; simp
    have : ∀ l ∈ lines endEx, 'r' ∉ l := by decide
    exact absurd ‹'r' ∈ l› (this l hl)
  have hsp : ∀ c, isMark defaultMarks c = true → isSpace c = false := by
    intro c hc
    have : c = '❨' ∨ c = '❩' ∨ c = '❪' ∨ c = '❫' := by simpa [isMark, defaultMarks, or_assoc] using hc
    rcases this with rfl | rfl | rfl | rfl <;> decide
  exact C119_loaded (l0 := s!!"ul") (l1 := s!!"  li | two") hsp ⟨defaultMarks_apart.distinct, by decide, by decide⟩
    (by decide) (by decide) hraw (by decide) h

example : exText [(s!!"%p", .py (.tag 0))] (s!!"p | x\np | y") = some (s!!"<p>x</p>\n<p>y</p>") ∧
    exText [(s!!"%p", .py (.tag 0))] (s!!"p | x\np | y\n \n\n") = some (s!!"<p>x</p>\n<p>y</p>\n\n\n") ∧
    exText [(s!!"%p", .py (.tag 0))] (s!!"p\n  p | y\n\n") = some (s!!"<p>\n  <p>y</p>\n</p>\n\n") := by decide +kernel

-- without any text before, one newline is the one that every document loses
example : exText [] (s!!"# nothing\n\n") = some (s!!"\n") := by decide +kernel

end

end Verif
