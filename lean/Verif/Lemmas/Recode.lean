import Verif.Lemmas.JoiningText
import Verif.Lemmas.FitLoad

/-! Other marks: the encoded text, and runs of the parser. -/

namespace Verif
open Py Spec

section
variable (M M' : Marks)

/-- The mark of `M'` in place of that of `M`. -/
def recode (c : Char) : Char :=
  if c = M.indentS then M'.indentS else if c = M.dedentS then M'.dedentS
  else if c = M.indentT then M'.indentT else if c = M.dedentT then M'.dedentT else c

/-- Characters of texts that are encoded by `M` and contain no marks of `M'`. -/
def CodeChar (c : Char) : Prop := isMark M c = true ∨ isMark M' c = false

variable {M M'}

theorem recode_of_not {c : Char} (h : isMark M c = false) : recode M M' c = c := by
  simp only [isMark, Bool.or_eq_false_iff, beq_eq_false_iff_ne] at h
  simp [recode, h.1.1.1, h.1.1.2, h.1.2, h.2]

theorem recode_mark {c : Char} (h : isMark M c = true) : isMark M' (recode M M' c) = true := by
  simp only [isMark, Bool.or_eq_true, beq_iff_eq] at h
  unfold recode
  split
  · simp [isMark]
  split
  · simp [isMark]
  split
  · simp [isMark]
  split
  · simp [isMark]
  · next h1 h2 h3 h4 => simp [h1, h2, h3, h4] at h

theorem recode_isMark {c : Char} (h : CodeChar M M' c) : isMark M' (recode M M' c) = isMark M c := by
  cases hm : isMark M c with
  | true => exact recode_mark hm
  | false =>
    rw [recode_of_not hm]
    rcases h with h | h
    · rw [hm] at h; cases h
    · exact h

theorem recode_inj (hd : Marks.Distinct M') {c d : Char} (hc : CodeChar M M' c) (hd' : CodeChar M M' d)
    (h : recode M M' c = recode M M' d) : c = d := by
  have hm : isMark M c = isMark M d := by rw [← recode_isMark hc, ← recode_isMark hd', h]
  cases hx : isMark M c with
  | false =>
    rw [recode_of_not hx, recode_of_not (hm ▸ hx)] at h
    exact h
  | true =>
    have hy := hm ▸ hx
    simp only [Marks.Distinct, List.nodup_cons, List.mem_cons, List.not_mem_nil, or_false, not_or, not_false_eq_true,
      List.nodup_nil, and_true] at hd
    obtain ⟨⟨d1, d2, d3⟩, ⟨d4, d5⟩, d6⟩ := hd
    simp only [isMark, Bool.or_eq_true, beq_iff_eq] at hx hy
    unfold recode at h
    split at h <;> split at h <;> (try split at h) <;> (try split at h) <;> (try split at h) <;> (try split at h) <;>
      (try split at h) <;> (try split at h) <;> simp_all

/-- The classes agree. -/
def Fair (p p' : Char → Bool) : Prop := ∀ c, CodeChar M M' c → p' (recode M M' c) = p c

theorem Fair.const {p : Char → Bool} {b : Bool} (h : ∀ c, isMark M c = true ∨ isMark M' c = true → p c = b) :
    Fair (M := M) (M' := M') p p := by
  intro c hc
  cases hm : isMark M c with
  | false => rw [recode_of_not hm]
  | true => rw [h c (.inl hm), h _ (.inr (recode_mark hm))]

/-- Regular expressions that differ by marks in classes. -/
def RRel : RE → RE → Prop
  | .eps, .eps => True
  | .chr p, .chr p' => Fair (M := M) (M' := M') p p'
  | .many p, .many p' => Fair (M := M) (M' := M') p p'
  | .seq a b, .seq a' b' => RRel a a' ∧ RRel b b'
  | .alt a b, .alt a' b' => RRel a a' ∧ RRel b b'
  | .bound p, .bound p' => Fair (M := M) (M' := M') p p'
  | _, _ => False

theorem manyRests_recode {p p' : Char → Bool} (h : Fair (M := M) (M' := M') p p') {s : Str} (hs : ∀ c ∈ s, CodeChar M M' c) :
    manyRests p' (s.map (recode M M')) = (manyRests p s).map (List.map (recode M M')) := by
  induction s with
  | nil => rfl
  | cons c s ih =>
    simp only [List.map_cons, manyRests, h c (hs c List.mem_cons_self), ih (fun d hd => hs d (List.mem_cons_of_mem _ hd))]
    split <;> simp

theorem rests_recode {r r' : RE} (h : RRel (M := M) (M' := M') r r') {s : Str} (hs : ∀ c ∈ s, CodeChar M M' c) :
    r'.rests (s.map (recode M M')) = (r.rests s).map (List.map (recode M M')) := by
  induction r generalizing r' s with
  | eps => cases r' <;> first | exact h.elim | rfl
  | chr p =>
    cases r' with
    | chr p' =>
      cases s with
      | nil => rfl
      | cons c s =>
        simp only [List.map_cons, RE.rests, show p' (recode M M' c) = p c from h c (hs c List.mem_cons_self)]
        split <;> rfl
    | _ => exact h.elim
  | many p =>
    cases r' with
    | many p' => exact manyRests_recode h hs
    | _ => exact h.elim
  | seq a b iha ihb =>
    cases r' with
    | seq a' b' =>
      simp only [RE.rests, iha h.1 hs, List.flatMap_map, List.map_flatMap]
      have hb : ∀ x ∈ a.rests s, b'.rests (x.map (recode M M')) = (b.rests x).map (List.map (recode M M')) := by
        intro x hx
        obtain ⟨w, hw, -⟩ := RE.rests_lang a s x hx
        exact ihb h.2 (fun c hc => hs c (by rw [hw]; exact List.mem_append_right _ hc))
      generalize a.rests s = xs at hb
      induction xs with
      | nil => rfl
      | cons x xs ih =>
        simp only [List.flatMap_cons, hb x List.mem_cons_self, ih (fun y hy => hb y (List.mem_cons_of_mem _ hy))]
    | _ => exact h.elim
  | alt a b iha ihb =>
    cases r' with
    | alt a' b' => simp only [RE.rests, iha h.1 hs, ihb h.2 hs, List.map_append]
    | _ => exact h.elim
  | bound w =>
    cases r' with
    | bound w' =>
      cases s with
      | nil => rfl
      | cons c s =>
        simp only [List.map_cons, RE.rests, List.head?_cons, Option.map_some, Option.getD_some,
          show w' (recode M M' c) = w c from h c (hs c List.mem_cons_self)]
        by_cases hw : w c = true <;> simp [hw]
    | _ => exact h.elim

theorem match_recode {r r' : RE} (h : RRel (M := M) (M' := M') r r') {s : Str} (hs : ∀ c ∈ s, CodeChar M M' c) :
    r'.match? (s.map (recode M M')) = (r.match? s).map (List.map (recode M M')) := by
  simp only [RE.match?, rests_recode h hs, List.head?_map]

mutual
/-- Expressions of the grammar that differ by marks. -/
inductive PegRel {N : Type} (M M' : Marks) : Peg N → Peg N → Prop
  | lit {l} : (∀ c ∈ l, CodeChar M M' c) → PegRel M M' (.lit l) (.lit (l.map (recode M M')))
  | rx {r r'} : RRel (M := M) (M' := M') r r' → PegRel M M' (.rx r) (.rx r')
  | ref (n) : PegRel M M' (.ref n) (.ref n)
  | seq {ps ps'} : PegsRel M M' ps ps' → PegRel M M' (.seq ps) (.seq ps')
  | alt {ps ps'} : PegsRel M M' ps ps' → PegRel M M' (.alt ps) (.alt ps')
  | opt {p p'} : PegRel M M' p p' → PegRel M M' (.opt p) (.opt p')
  | star {p p'} : PegRel M M' p p' → PegRel M M' (.star p) (.star p')
  | plus {p p'} : PegRel M M' p p' → PegRel M M' (.plus p) (.plus p')
  | not {p p'} : PegRel M M' p p' → PegRel M M' (.not p) (.not p')
inductive PegsRel {N : Type} (M M' : Marks) : List (Peg N) → List (Peg N) → Prop
  | nil : PegsRel M M' [] []
  | cons {p p' ps ps'} : PegRel M M' p p' → PegsRel M M' ps ps' → PegsRel M M' (p :: ps) (p' :: ps')
end

/-- The tree of the recoded text. -/
def PTree.recode {N : Type} (M M' : Marks) : PTree N → PTree N
  | .node n t cs => .node n (t.map (Verif.recode M M')) (cs.map (PTree.recode M M'))

/-- The outcome on the recoded text. -/
def PRes.recode {α β : Type} (M M' : Marks) (g : α → β) : PRes α → PRes β
  | .fail => .fail
  | .ok a r => .ok (g a) (r.map (Verif.recode M M'))
  | .timeout => .timeout

theorem consumed_recode (s rest : Str) :
    consumed (s.map (recode M M')) (rest.map (recode M M')) = (consumed s rest).map (recode M M') := by
  simp [consumed, List.map_take]

theorem isPrefixOf_recode (hd : Marks.Distinct M') {l s : Str} (hl : ∀ c ∈ l, CodeChar M M' c) (hs : ∀ c ∈ s, CodeChar M M' c) :
    (l.map (recode M M')).isPrefixOf (s.map (recode M M')) = l.isPrefixOf s := by
  induction l generalizing s with
  | nil => cases s <;> rfl
  | cons c l ih =>
    cases s with
    | nil => rfl
    | cons d s =>
      simp only [List.map_cons, List.isPrefixOf, ih (fun x hx => hl x (List.mem_cons_of_mem _ hx)) (fun x hx => hs x (List.mem_cons_of_mem _ hx))]
      congr 1
      rw [Bool.eq_iff_iff, beq_iff_eq, beq_iff_eq]
      exact ⟨fun h => recode_inj hd (hl c List.mem_cons_self) (hs d List.mem_cons_self) h, fun h => h ▸ rfl⟩

section
variable {N : Type} {G G' : N → Peg N}

theorem rest_code {f : Nat} {p : Peg N} {s rest : Str} {t : PTree N} (h : run G f p s = .ok t rest)
    (hs : ∀ c ∈ s, CodeChar M M' c) : ∀ c ∈ rest, CodeChar M M' c :=
  fun c hc => hs c (by rw [← node_text h]; exact List.mem_append_right _ hc)

theorem run_recode (hd : Marks.Distinct M') (hG : ∀ n, PegRel M M' (G n) (G' n)) (f : Nat) :
    (∀ p p' s, PegRel M M' p p' → (∀ c ∈ s, CodeChar M M' c) →
      run G' f p' (s.map (recode M M')) = (run G f p s).recode M M' (PTree.recode M M')) ∧
    (∀ ps ps' s, PegsRel M M' ps ps' → (∀ c ∈ s, CodeChar M M' c) →
      runSeq G' f ps' (s.map (recode M M')) = (runSeq G f ps s).recode M M' (List.map (PTree.recode M M'))) ∧
    (∀ ps ps' s, PegsRel M M' ps ps' → (∀ c ∈ s, CodeChar M M' c) →
      runAlt G' f ps' (s.map (recode M M')) = (runAlt G f ps s).recode M M' (PTree.recode M M')) ∧
    (∀ p p' s, PegRel M M' p p' → (∀ c ∈ s, CodeChar M M' c) →
      runStar G' f p' (s.map (recode M M')) = (runStar G f p s).recode M M' (List.map (PTree.recode M M'))) ∧
    (∀ p p' s, PegRel M M' p p' → (∀ c ∈ s, CodeChar M M' c) →
      runPlus G' f p' (s.map (recode M M')) = (runPlus G f p s).recode M M' (List.map (PTree.recode M M'))) ∧
    (∀ p p' s, PegRel M M' p p' → (∀ c ∈ s, CodeChar M M' c) →
      runMore G' f p' (s.map (recode M M')) = (runMore G f p s).recode M M' (List.map (PTree.recode M M'))) := by
  induction f with
  | zero =>
    refine ⟨?_, ?_, ?_, ?_, ?_, ?_⟩ <;> intros <;>
      simp only [run, runSeq, runAlt, runStar, runPlus, runMore, PRes.recode]
  | succ f ih =>
    obtain ⟨h1, h2, h3, h4, h5, h6⟩ := ih
    have hanon : ∀ (s rest : Str) (cs : List (PTree N)),
        anon (s.map (recode M M')) (rest.map (recode M M')) (cs.map (PTree.recode M M')) = (anon s rest cs).recode M M' := by
      intro s rest cs
      simp only [anon, PTree.recode, consumed_recode]
    refine ⟨?_, ?_, ?_, ?_, ?_, ?_⟩
    · intro p p' s hp hs
      cases hp with
      | lit hl =>
        rename_i l
        simp only [run, runLit, isPrefixOf_recode hd hl hs, List.length_map, ← List.map_drop]
        split
        · simp only [PRes.recode]
          have := hanon s (s.drop l.length) []
          rw [← this]
          rfl
        · rfl
      | rx hr =>
        simp only [run, runRx, match_recode hr hs]
        cases hx : RE.match? _ s with
        | none => rfl
        | some rest =>
          simp only [Option.map_some, PRes.recode]
          rw [← hanon s rest []]
          rfl
      | ref n =>
        simp only [run, h1 _ _ s (hG n) hs]
        cases run G f (G n) s with
        | fail => rfl
        | timeout => rfl
        | ok t rest => cases t; simp [PRes.map, PRes.recode, PTree.rename, PTree.recode]
      | seq hps =>
        simp only [run, h2 _ _ s hps hs]
        cases runSeq G f _ s with
        | fail => rfl
        | timeout => rfl
        | ok t rest => simp only [PRes.recode, wrapMany, hanon]
      | alt hps =>
        simp only [run, h3 _ _ s hps hs]
        cases runAlt G f _ s with
        | fail => rfl
        | timeout => rfl
        | ok t rest => simp only [PRes.recode, wrapOne, ← hanon, List.map_cons, List.map_nil]
      | opt hp =>
        simp only [run, h1 _ _ s hp hs]
        cases run G f _ s with
        | fail => simp only [PRes.recode, wrapOpt, ← hanon, List.map_nil]
        | timeout => rfl
        | ok t rest => simp only [PRes.recode, wrapOpt, ← hanon, List.map_cons, List.map_nil]
      | star hp =>
        simp only [run, h4 _ _ s hp hs]
        cases runStar G f _ s with
        | fail => rfl
        | timeout => rfl
        | ok t rest => simp only [PRes.recode, wrapMany, hanon]
      | plus hp =>
        simp only [run, h5 _ _ s hp hs]
        cases runPlus G f _ s with
        | fail => rfl
        | timeout => rfl
        | ok t rest => simp only [PRes.recode, wrapMany, hanon]
      | not hp =>
        simp only [run, h1 _ _ s hp hs]
        cases run G f _ s with
        | fail => simp only [PRes.recode, wrapNot, ← hanon, List.map_nil]
        | timeout => rfl
        | ok t rest => rfl
    · intro ps ps' s hps hs
      cases hps with
      | nil => simp only [runSeq, PRes.recode, List.map_nil]
      | cons hp hps =>
        simp only [runSeq, h1 _ _ s hp hs]
        cases hr : run G f _ s with
        | fail => rfl
        | timeout => rfl
        | ok t rest =>
          simp only [PRes.recode, h2 _ _ rest hps (rest_code hr hs)]
          cases runSeq G f _ rest <;> rfl
    · intro ps ps' s hps hs
      cases hps with
      | nil => simp only [runAlt, PRes.recode]
      | cons hp hps =>
        simp only [runAlt, h1 _ _ s hp hs]
        cases hr : run G f _ s with
        | fail => simp only [PRes.recode, h3 _ _ s hps hs]
        | timeout => rfl
        | ok t rest => simp only [PRes.recode]
    · intro p p' s hp hs
      simp only [runStar, h1 _ _ s hp hs]
      cases hr : run G f _ s with
      | fail => simp only [PRes.recode, List.map_nil]
      | timeout => rfl
      | ok t rest =>
        simp only [PRes.recode, List.length_map, h4 _ _ rest hp (rest_code hr hs)]
        split
        · simp only [List.map_nil]
        · cases runStar G f _ rest <;> rfl
    · intro p p' s hp hs
      simp only [runPlus, h1 _ _ s hp hs]
      cases hr : run G f _ s with
      | fail => simp only [PRes.recode]
      | timeout => rfl
      | ok t rest =>
        simp only [PRes.recode, List.length_map, h6 _ _ rest hp (rest_code hr hs)]
        split
        · simp only [List.map_nil, List.map_cons]
        · cases runMore G f _ rest <;> rfl
    · intro p p' s hp hs
      simp only [runMore, h1 _ _ s hp hs]
      cases hr : run G f _ s with
      | fail => simp only [PRes.recode, List.map_nil]
      | timeout => rfl
      | ok t rest =>
        simp only [PRes.recode, List.length_map, h6 _ _ rest hp (rest_code hr hs)]
        split
        · simp only [List.map_nil, List.map_cons]
        · cases runMore G f _ rest <;> rfl

end
end
end Verif
