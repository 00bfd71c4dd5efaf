import Verif.Props.BlankEnd

/-! C120: blank lines at the beginning of a script. -/

namespace Verif
open Py Spec

section
variable {M : Marks} {U : Uni}

/-- The tree of the lines before a block. -/
def marginTree (w : Str) : PTree NT := .node (some .margin_out) w [.node (some .nl) w [], .node none [] []]

theorem consumed_before (n s y : Str) (h : y <:+ s) : consumed (n ++ s) y = n ++ consumed s y := by
  obtain ⟨u, rfl⟩ := h
  rw [← List.append_assoc, consumed_of_append, consumed_of_append]

theorem dropNl_replicate (k : Nat) (s : Str) :
    (List.replicate k '\n' ++ s).dropWhile (· == '\n') = s.dropWhile (· == '\n') := by
  induction k with
  | zero => rfl
  | succ k ih => rw [List.replicate_succ, List.cons_append, List.dropWhile_cons, if_pos (by decide)]; exact ih

theorem margin_yields (s : Str) : Yields (rule M U) (.ref .margin_out) ('\n' :: s)
    (marginTree (consumed ('\n' :: s) (s.dropWhile (· == '\n')))) (s.dropWhile (· == '\n')) := by
  have hrx : reNl.match? ('\n' :: s) = some (s.dropWhile (· == '\n')) := by
    simp only [RE.match?, reNl, RE.many1, RE.rests, beq_self_eq_true, if_true, List.flatMap_cons, List.flatMap_nil,
      List.append_nil]
    exact manyRests_head _ s
  have h : Yields (rule M U) (.ref .margin_out) ('\n' :: s) _ _ :=
    .ref (.seq (.cons (.ref (.rx hrx)) (.cons (.lit [] _) (.nil _))))
  exact h

/-- The first block and the others. -/
theorem BlockSeries.split {s rest : Str} {cs : List (PTree NT)} (h : BlockSeries M U s cs rest) :
    ∃ c tl r, cs = c :: tl ∧ Yields (rule M U) (.ref .block) s c r ∧ r.length ≠ s.length ∧
      YieldsMore (rule M U) (.ref .block) r tl rest := by
  obtain ⟨f, h⟩ := h
  cases f with
  | zero => cases h
  | succ f =>
    simp only [runPlus] at h
    cases hr : run (rule M U) f (.ref .block) s with
    | timeout => rw [hr] at h; cases h
    | fail => rw [hr] at h; cases h
    | ok c r =>
      rw [hr] at h
      simp only at h
      split at h
      · next e =>
        exfalso
        have hn := (run_emptyOnly (G := rule M U) (rule_nullable M U) f).1 (.ref .block) s
        rw [hr] at hn
        have := hn rfl
        omega
      · next hlt =>
        cases hm : runMore (rule M U) f (.ref .block) r with
        | timeout => rw [hm] at h; cases h
        | fail => rw [hm] at h; cases h
        | ok cs' x => rw [hm] at h; cases h; exact ⟨_, _, _, rfl, ⟨f, hr⟩, hlt, ⟨f, hm⟩⟩

/-- With empty lines before it, the first block has a larger margin, and nothing else is different. -/
theorem blocks_after_blank (k : Nat) {s rest : Str} {cs : List (PTree NT)} (h : BlockSeries M U ('\n' :: s) cs rest) :
    ∃ w x x' o a tl, cs = .node (some .block) x [marginTree w, o, a] :: tl ∧ w ≠ [] ∧ x'.length = k + x.length ∧
      BlockSeries M U (List.replicate k '\n' ++ '\n' :: s)
        (.node (some .block) x' [marginTree (List.replicate k '\n' ++ w), o, a] :: tl) rest := by
  obtain ⟨c, tl, r, rfl, hb, hlt, hm⟩ := h.split
  have hy := margin_yields (M := M) (U := U) s
  have hy' : Yields (rule M U) (.ref .margin_out) (List.replicate k '\n' ++ '\n' :: s)
      (marginTree (List.replicate k '\n' ++ consumed ('\n' :: s) (s.dropWhile (· == '\n')))) (s.dropWhile (· == '\n')) := by
    have := margin_yields (M := M) (U := U) (List.replicate k '\n' ++ s)
    rw [dropNl_replicate, ← List.cons_append, ← List.replicate_succ, List.replicate_succ', List.append_assoc,
      List.singleton_append, consumed_before _ _ _ ((List.dropWhile_suffix _).trans (List.suffix_cons _ _))] at this
    exact this
  obtain ⟨o, z, ho⟩ := (rule_noLeftRec M U).opt (.seq [.ref .modifier, .ref .ws]) (s.dropWhile (· == '\n'))
  rcases (rule_noLeftRec M U).total (.alt [.ref .block_control, .ref .block_def, .ref .block_context, .ref .block_import,
    .ref .block_struct, .ref .block_comment, .ref .special_tag]) z with ⟨a, r', ha⟩ | ha
  · have y1 : Yields (rule M U) (.ref .block) ('\n' :: s) _ _ := .ref (.seq (.cons hy (.cons ho (.cons ha (.nil _)))))
    have y2 : Yields (rule M U) (.ref .block) (List.replicate k '\n' ++ '\n' :: s) _ _ :=
      .ref (.seq (.cons hy' (.cons ho (.cons ha (.nil _)))))
    obtain ⟨rfl, rfl⟩ := hb.unique y1
    have w1 := y1.whole
    have w2 := y2.whole
    have l1 := congrArg List.length w1
    have l2 := congrArg List.length w2
    simp only [PTree.rename, PTree.text, List.length_append, List.length_replicate] at l1 l2
    have hw : consumed ('\n' :: s) (s.dropWhile (· == '\n')) ≠ [] := by
      intro e
      have := hy.whole
      rw [marginTree, PTree.text, e, List.nil_append] at this
      have := congrArg List.length this
      have := (List.dropWhile_suffix (· == '\n') (l := s)).length_le
      simp at *
      omega
    refine ⟨_, _, _, o, a, tl, rfl, hw, ?_, (YieldsMore.cons y2 ?_ hm).series⟩
    · exact Nat.add_right_cancel (m := r.length) (by rw [l2, ← l1, Nat.add_assoc])
    · simp only [List.length_append, List.length_replicate]
      omega
  · exact absurd (.ref (.seq (.tail hy (.tail ho (.head ha))))) (fun e => hb.not_fails e)

/-- Blank lines at the beginning are encoded as newlines. -/
theorem enc_blankStart {ls1 ls2 : List Str} (hb : ∀ l ∈ ls1, ¬ NonBlank l) {l0 : Str}
    (h0 : ls2.find? (fun l => decide (NonBlank l)) = some l0) (hi : leading l0 = []) {k : Nat} {A : Str}
    (hA : enc M [] 0 k ls2 = .ok A) : enc M [] 0 k (ls1 ++ ls2) = .ok (List.replicate ls1.length '\n' ++ A) := by
  rw [enc_blankLines _ _ _ _ _ hb]
  obtain ⟨as, bs, rfl, h1, h2⟩ := find_split h0
  have h1 : NonBlank l0 := by simpa using h1
  have h2 : ∀ a ∈ as, ¬ NonBlank a := fun a ha => by simpa using h2 a ha
  have hne : lstrip (rstrip l0) ≠ [] := fun e => lstrip_rstrip_eq_nil.1 e h1
  have hi' : leading (rstrip l0) = [] := by rw [leading_rstrip h1, hi]
  rw [enc_blankLines _ _ _ _ _ h2] at hA ⊢
  simp only [enc, if_neg hne, hi', List.nil_prefix, true_or, if_true] at hA ⊢
  cases he : enc M [] 0 (k + as.length + 1) bs with
  | error e => rw [he] at hA; cases hA
  | ok r =>
    rw [he] at hA
    rw [enc_number he]
    simp only [Except.ok.injEq, change, List.prefix_refl, if_true, List.length_nil, List.drop_nil, indentSymbols] at hA ⊢
    have hc : ∀ (n : Nat) (y : Str), '\n' :: (List.replicate n '\n' ++ y) = List.replicate n '\n' ++ '\n' :: y := by
      intro n y
      rw [← List.cons_append, ← List.replicate_succ, List.replicate_succ', List.append_assoc, List.singleton_append]
    rw [← hA, Nat.zero_add, Nat.zero_add, ← List.replicate_append_replicate]
    simp only [List.map_nil, List.nil_append, List.append_assoc, List.cons_append, hc]

variable {P : Type}

/-- The statements of the blocks. -/
theorem built_lowered (k : Nat) {names : Str → Option Char} {s w x x' : Str} {o a : PTree NT} {tl : List (PTree NT)}
    (hw : w ≠ []) (hx : x'.length = k + x.length)
    (hd : ∀ c ∈ PTree.node (some .block) x [marginTree w, o, a] :: tl, Derives (rule M U) (.ref .block) c)
    {as : List (Stmt P)}
    (h : buildAll names ('\n' :: s) (rewrites 0 (.node (some .block) x [marginTree w, o, a] :: tl)) = .ok (as.map Built.stmt)) :
    ∃ m q d ss, as = .xblock m q d :: ss ∧ buildAll names (List.replicate k '\n' ++ '\n' :: s)
      (rewrites 0 (.node (some .block) x' [marginTree (List.replicate k '\n' ++ w), o, a] :: tl)) =
        .ok ((.xblock (List.replicate k '\n' ++ m) q (Spec.moved k d) :: movedAll k ss).map Built.stmt) := by
  have hmg : ∀ pos w, rewrite pos (marginTree w) = [.node .margin_out pos w []] := by
    intro pos w
    simp only [marginTree, rewrite, rewrites, isIgnored, isReduced, Bool.false_eq_true, if_false, if_true, compactNode,
      isCompact, List.append_nil]
  have hbl : ∀ pos x w, rewrite pos (.node (some .block) x [marginTree w, o, a]) =
      [.node .block pos x (.node .margin_out pos w [] :: rewrites (pos + w.length) [o, a])] := by
    intro pos x w
    rw [rewrite_some, if_neg (by decide), if_neg (by decide)]
    simp only [compactNode, isCompact, Bool.false_eq_true, if_false]
    rw [rewrites, hmg]
    rfl
  have hlen : (List.replicate k '\n').length = k := List.length_replicate
  obtain ⟨ks, hk, hks⟩ := (hd _ List.mem_cons_self).block_within 0
  rw [hbl] at hk
  simp only [List.cons.injEq, RTree.node.injEq, and_true, true_and] at hk
  rw [← hk.2] at hks
  have hoa := hks.2
  have htl := blocks_within (fun c hc => hd c (List.mem_cons_of_mem _ hc)) (pos := x.length)
  rw [rewrites, hbl] at h ⊢
  simp only [Nat.zero_add, PTree.text, List.cons_append, List.nil_append, hx, List.length_append, hlen] at h hks hoa ⊢
  simp only [buildAll] at h ⊢
  split at h
  · next b hb =>
    split at h
    · next bs hbs =>
      have q2 := buildAll_moved (List.replicate k '\n') s _ _ _ (RTree.withinAll.mono (by omega) (Nat.le_refl _) htl) hbs
      rw [hlen, ← rewrites_moved] at q2
      cases as with
      | nil => cases h
      | cons st ss =>
        simp only [Except.ok.injEq, List.map_cons, List.cons.injEq] at h
        obtain ⟨rfl, rfl⟩ := h
        have q1 : ∃ m q d, st = .xblock m q d ∧ build names (List.replicate k '\n' ++ '\n' :: s) (.node .block 0 x'
            (.node .margin_out 0 (List.replicate k '\n' ++ w) [] :: rewrites (k + w.length) [o, a])) =
              .ok (.stmt (.xblock (List.replicate k '\n' ++ m) q (Spec.moved k d))) := by
          simp only [build, buildAll] at hb ⊢
          split at hb
          · next cs hcs =>
            split at hcs
            · next b0 hb0 =>
              split at hcs
              · next bs' hbs' =>
                cases hcs
                have q3 := buildAll_moved (List.replicate k '\n') s _ _ _ hoa hbs'
                rw [hlen, ← rewrites_moved] at q3
                rw [q3]
                simp only [attachQuals, setup, setupExpr] at hb0 hb ⊢
                cases hb0
                simp only [attachQuals_moved]
                simp only [attachQuals] at hb
                rw [List.dropLast_append_of_ne_nil hw]
                split at hb
                · next hl =>
                  simp only [List.cons.injEq, Built.str.injEq, true_and] at hl
                  obtain ⟨rfl, hl⟩ := hl
                  cases hb
                  rw [hl]
                  exact ⟨_, _, _, rfl, rfl⟩
                · next hl =>
                  simp only [List.cons.injEq, Built.str.injEq, true_and] at hl
                  obtain ⟨rfl, hl⟩ := hl
                  cases hb
                  rw [hl]
                  exact ⟨_, _, _, rfl, rfl⟩
                · next hl =>
                  simp only [List.cons.injEq, Built.str.injEq, true_and] at hl
                  obtain ⟨rfl, hl⟩ := hl
                  cases hb
                  rw [hl]
                  exact ⟨_, _, _, rfl, rfl⟩
                · cases hb
              · cases hcs
            · cases hcs
          · cases hb
        obtain ⟨m, q, d, rfl, q1⟩ := q1
        refine ⟨_, _, _, _, rfl, ?_⟩
        rw [q1]
        simp only
        rw [q2]
        simp [Built.moved, Function.comp_def]
        clear q2 hbs
        induction ss with
        | nil => rfl
        | cons s ss ih => simp only [List.map_cons, movedAll, ih]
    · cases h
  · cases h

/-- There are no text blocks in the lines after the last block. -/
theorem end_within {rest : Str} {mg : PTree NT} (h : Yields (rule M U) (.opt (.ref .margin)) rest mg []) (pos lo hi : Nat) :
    RTree.withinAll lo hi (rewrite pos mg) := by
  obtain ⟨f, hf⟩ := h
  have hd := (run_derives f).1 _ _ _ _ hf
  cases hd with
  | none => exact trivial
  | some hd =>
    cases hd with
    | ref hd =>
      cases hd with
      | seq hd =>
        cases hd with
        | cons hn hl =>
          cases hn with
          | ref hn =>
            cases hl with
            | cons hl hnil =>
              cases hnil
              cases hl
              cases hn with
              | rx hn =>
                simp only [rewrite, rewrites, PTree.rename, isIgnored, isReduced, Bool.false_eq_true, if_false, if_true, compactNode, isCompact, List.append_nil,
                  RTree.withinAll, RTree.within, and_true]
                intro e
                cases e

theorem movedAll_both (k : Nat) (as bs : List (Stmt P)) : movedAll k (as ++ bs) = movedAll k as ++ movedAll k bs := by
  induction as with
  | nil => rfl
  | cons a as ih => simp only [List.cons_append, movedAll, ih]

/-- C120. Blank lines before the first line of a script are kept as such: its first block has as many empty lines
before it as there are blank lines, in addition to those it had. The other statements are the same; the positions
of definitions, which are their identities, are moved by the number of blank lines. -/
theorem C120_loaded [hM : MarksApart M U] {names : Str → Option Char} {s blank l0 : Str} {ss : List (Stmt P)}
    (h0 : firstLine s = some l0 ∧ leading l0 = []) (hb : ∀ l ∈ lines blank, ¬ NonBlank l)
    (hs : loadScript M U names s = .ok ss) :
    ∃ m q b r, ss = .xblock m q b :: r ∧ loadScript M U names (blank ++ '\n' :: s) =
      .ok (.xblock (List.replicate (lines blank).length '\n' ++ m) q (Spec.moved (lines blank).length b) ::
        movedAll (lines blank).length r) := by
  obtain ⟨A, t, hA, p, g⟩ := loaded hs
  rw [preprocess_eq_enc] at hA
  have hA' := enc_blankStart hb h0.1 h0.2 hA
  rw [← lines_append, ← preprocess_eq_enc] at hA'
  obtain ⟨⟨m0, r0, _, hA0, _⟩, _⟩ := enc_first h0.1 h0.2 hA
  have n0 : NonBlank l0 := by simpa using List.find?_some h0.1
  obtain ⟨c0, x0, e0, s0⟩ := lstrip_not_blank (fun e => lstrip_rstrip_eq_nil.1 e n0)
  have hnl0 : c0 ≠ '\n' := by rintro rfl; cases s0
  have hone : ∀ c, isMark M c = true → c ≠ '\n' := by
    rintro c hc rfl
    rw [nl_not_mark U] at hc
    cases hc
  have m1 : M.indentS ≠ '\n' := hone _ (by simp [isMark])
  have m2 : M.indentT ≠ '\n' := hone _ (by simp [isMark])
  subst hA0
  rw [parse_yields] at p
  obtain ⟨rest, b1, hrest⟩ := blocks_of_document m1 m2 p ⟨c0, by rw [e0]; simp, hnl0⟩
  obtain ⟨mg, hmg⟩ := margin_all (M := M) (U := U) hrest
  have d1 := doc_of m1 m2 b1 hmg p
  obtain ⟨as, bs, r, a1, a2, a3, rfl⟩ := (doc_children d1).1 g
  generalize hn : (lines blank).length = n at hA' ⊢
  generalize List.replicate m0 '\n' ++ (lstrip (rstrip l0) ++ r0) = B at *
  obtain ⟨w, x, x', o, a, tl, hcs, hw, hx, b2⟩ := blocks_after_blank n b1
  rw [hcs] at b1 d1 a1 a2
  obtain ⟨m, q, st, as', rfl, c1⟩ := built_lowered n hw hx b1.derives.1 a1
  have c2 := buildAll_moved (List.replicate n '\n') B _ _ 0 (end_within hmg _ 1 0) a2
  rw [← rewrite_moved, List.length_replicate] at c2
  have hlen : (texts (PTree.node (some NT.block) x' [marginTree (List.replicate n '\n' ++ w), o, a] :: tl)).length =
      n + (texts (PTree.node (some NT.block) x [marginTree w, o, a] :: tl)).length := by
    simp only [texts_cons, PTree.text, List.length_append, hx, Nat.add_assoc]
  rw [← hlen] at c2
  obtain ⟨B', hB'⟩ : ∃ B', List.replicate n '\n' ++ '\n' :: B = '\n' :: B' := by
    cases n with
    | zero => exact ⟨_, rfl⟩
    | succ n => exact ⟨_, rfl⟩
  rw [hB'] at b2 c1 c2 hA'
  obtain ⟨t', ht, _⟩ := document_of_blocks m1 m2 b2 hrest
  have d := doc_of m1 m2 b2 hmg ht
  refine ⟨_, _, _, as' ++ r, rfl, ?_⟩
  have key : buildAll names ('\n' :: B') (rewrite 0 t') =
      .ok [.document (.xblock (List.replicate n '\n' ++ m) q (Spec.moved n st) :: movedAll n (as' ++ r))] := by
    refine (doc_children d).2 ⟨_, _, movedAll n r, c1, c2, ?_, ?_⟩
    · rw [attachQuals_moved]
      exact asStmts_moved _ a3
    · rw [movedAll_both, List.cons_append]
  unfold loadScript
  rw [hA']
  simp only
  rw [show parse M U ('\n' :: B') = .ok t' from parse_yields.2 ht]
  simp only
  rw [key]

end

section
variable {P X W I : Type}

mutual
theorem moved_plain (k : Nat) : ∀ (s : Stmt P), s.defs = [] → Spec.moved k s = s
  | .xblock _ _ b, h | .struct _ b, h => by
    simp only [Stmt.defs] at h
    simp only [Spec.moved, moved_plain k b h]
  | .defn .., h => by simp only [Stmt.defs] at h; cases h
  | .tryBlock bs, h | .forBlock _ _ bs, h | .body bs, h => by
    simp only [Stmt.defs] at h
    simp only [Spec.moved, movedAll_plain k bs h]
  | .ifBlock cs els, h => by
    simp only [Stmt.defs, List.append_eq_nil_iff] at h
    simp only [Spec.moved, movedClauses_plain k cs h.1, movedOpt_plain k els h.2]
  | .elseClause b, h => by
    simp only [Stmt.defs] at h
    simp only [Spec.moved, movedOpt_plain k b h]
  | .whileBlock _ b els, h => by
    simp only [Stmt.defs, List.append_eq_nil_iff] at h
    simp only [Spec.moved, movedOpt_plain k b h.1, movedOpt_plain k els h.2]
  | .static _, _ | .indent _, _ | .dedent _, _ | .line _, _ | .text .., _ | .embed _, _ | .comment, _ | .assign .., _
  | .imports .., _ | .exprBlock _, _ | .pass, _ => by simp only [Spec.moved]
theorem movedAll_plain (k : Nat) : ∀ (ss : List (Stmt P)), Stmt.defsAll ss = [] → movedAll k ss = ss
  | [], _ => rfl
  | s :: ss, h => by
    simp only [Stmt.defsAll, List.append_eq_nil_iff] at h
    simp only [movedAll, moved_plain k s h.1, movedAll_plain k ss h.2]
theorem movedOpt_plain (k : Nat) : ∀ (s : Option (Stmt P)), Stmt.defsOpt s = [] → movedOpt k s = s
  | none, _ => rfl
  | some s, h => by
    simp only [Stmt.defsOpt] at h
    simp only [movedOpt, moved_plain k s h]
theorem movedClause_plain (k : Nat) : ∀ (c : Expr × Option (Stmt P)), Stmt.defsClause c = [] → movedClause k c = c
  | (_, b), h => by
    simp only [Stmt.defsClause] at h
    simp only [movedClause, movedOpt_plain k b h]
theorem movedClauses_plain (k : Nat) : ∀ (cs : List (Expr × Option (Stmt P))), Stmt.defsClauses cs = [] → movedClauses k cs = cs
  | [], _ => rfl
  | c :: cs, h => by
    simp only [Stmt.defsClauses, List.append_eq_nil_iff] at h
    simp only [movedClauses, movedClause_plain k c h.1, movedClauses_plain k cs h.2]
end

/-- C120. A script without definitions is loaded as the same statements, apart from the empty lines before the first
one. -/
theorem C120_plain {M : Marks} {U : Uni} [hM : MarksApart M U] {names : Str → Option Char} {s blank l0 : Str} {ss : List (Stmt P)}
    (h0 : firstLine s = some l0 ∧ leading l0 = []) (hb : ∀ l ∈ lines blank, ¬ NonBlank l)
    (hs : loadScript M U names s = .ok ss) (hd : Stmt.defsAll ss = []) :
    ∃ m q b r, ss = .xblock m q b :: r ∧
      loadScript M U names (blank ++ '\n' :: s) = .ok (.xblock (List.replicate (lines blank).length '\n' ++ m) q b :: r) := by
  obtain ⟨m, q, b, r, rfl, h⟩ := C120_loaded h0 hb hs
  simp only [Stmt.defsAll, Stmt.defs, List.append_eq_nil_iff] at hd
  rw [moved_plain _ _ hd.1, movedAll_plain _ _ hd.2] at h
  exact ⟨m, q, b, r, rfl, h⟩

/-- C120. The empty lines before a block have no influence on the analysis: the script has the same faults, the same
slots and the same exported symbols. -/
theorem C120_analysed (src : Source P I) (first : Slot) (g : Dict Str (Val P)) (m m' : Str) (q : Option Modifier) (b : Stmt P)
    (ss : List (Stmt P)) :
    (∀ e, analyseDocument src first g (.xblock m q b :: ss) = .error e → analyseDocument src first g (.xblock m' q b :: ss) = .error e) ∧
    ∀ doc, analyseDocument src first g (.xblock m q b :: ss) = .ok doc → ∃ b' ss', doc.children = .xblock m q b' :: ss' ∧
      analyseDocument src first g (.xblock m' q b :: ss) = .ok { doc with children := .xblock m' q b' :: ss' } := by
  unfold analyseDocument
  cases valueSlots (I := I) g { next := first } with
  | error e => exact ⟨fun _ h => h, nofun⟩
  | ok x =>
    simp only [analyseAll, analyse, bind, Except.bind, pure, Except.pure]
    cases analyse src b (leaveProlog b x.2) with
    | error e => exact ⟨fun _ h => h, nofun⟩
    | ok r =>
      simp only
      cases analyseAll src ss r.2 with
      | error e => exact ⟨fun _ h => h, nofun⟩
      | ok r' => exact ⟨nofun, fun doc h => by cases h; exact ⟨_, _, rfl, rfl⟩⟩

/-- C120. They are translated to one text before the other nodes. -/
theorem C120_translated (E : Env P X W) (σ : StateId) (q : Option Modifier) (b : Stmt P) (ss : List (Stmt P)) (n : Nat)
    (hn : n ≠ 0) : translAll E σ (.xblock (List.replicate n '\n') q b :: ss) = (do
      let r ← newText (List.replicate n '\n') .none
      let ns ← translAll E σ (.xblock [] q b :: ss)
      return r :: ns) := by
  obtain ⟨n, rfl⟩ := Nat.exists_eq_succ_of_ne_zero hn
  simp only [translAll, transl, List.replicate_succ, translStatic, Comp.bind_assoc, Comp.pure_bind]
  congr 1
  funext r
  congr 1
  funext b
  unfold finishBlock
  split
  · split <;> split <;> simp only [Comp.bind_assoc, Comp.pure_bind, nodesOf, List.nil_append, List.cons_append]
  · simp only [Comp.pure_bind, nodesOf, List.nil_append, List.cons_append]

/-- C120. So the text of the document begins with a newline for each blank line. The first newline of a document is
dropped: it is usually that of the first block, or else, if the block begins without, one of the blank lines. -/
theorem C120_rendered (ext : Nat → Except RenderErr Str → List AttrVal → List (Str × AttrVal) → Except RenderErr Str)
    (body : List Node) (t : Str) (n : Nat) (h : renderNodes ext body = .ok t) :
    renderNode ext (.mk .root none none none (.mk (.text (List.replicate (n + 1) '\n')) none none none [] false none :: body) false (some [])) =
      .ok (List.replicate n '\n' ++ t) ∧
    ∀ u, t = '\n' :: u → renderNode ext (.mk .root none none none body false (some [])) = .ok u := by
  constructor
  · simp only [renderNode, renderNodes, renderBody, h]
    simp [applyIndent, addIndent, bind, Except.bind, pure, Except.pure, dropLine, startsWith, List.replicate_succ]
  · rintro u rfl
    simp only [renderNode, renderBody, h]
    simp [applyIndent, addIndent, bind, Except.bind, pure, Except.pure, dropLine, startsWith]

end

section
attribute [local instance] defaultMarks_apart

/-- A definition, and a use of it. -/
def startEx : Str := s!!"% h x\n  p | $x\nh 'one'"

-- the conditions hold, for two lines before the first one: the definition is at position 1, and then at position 3
example : (loadScript (P := Unit) defaultMarks asciiUni (fun _ => none) startEx).toOption.isSome ∧
    exPlaces startEx = some ([1], []) ∧ exPlaces (s!!" \n\n" ++ startEx) = some ([3], []) := by decide +kernel

example (ss : List (Stmt Unit)) (h : loadScript defaultMarks asciiUni (fun _ => none) startEx = .ok ss) :
    ∃ m q b r, ss = .xblock m q b :: r ∧ loadScript defaultMarks asciiUni (fun _ => none) (s!!" \n" ++ '\n' :: startEx) =
      .ok (.xblock (s!!"\n\n" ++ m) q (Spec.moved 2 b) :: movedAll 2 r) :=
  C120_loaded (blank := s!!" \n") (l0 := s!!"% h x") (by decide) (by decide) h

example : exText [(s!!"%p", .py (.tag 0))] startEx = some (s!!"<p>one</p>") ∧
    exText [(s!!"%p", .py (.tag 0))] (s!!" \n\n" ++ startEx) = some (s!!"\n\n<p>one</p>") := by decide +kernel

-- blank lines before a comment are those of the comment, which gives no text but its lines
example : exText [(s!!"%p", .py (.tag 0))] (s!!"\n\n# remark\np | x") = some (s!!"\n\n<p>x</p>") := by decide +kernel

end

end Verif
