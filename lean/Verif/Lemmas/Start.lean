import Verif.Lemmas.Parses

/-
First characters: `cant p c` tells that `p` does not consume anything of a text that begins with `c`,
`nope p c` that it does not match such a text. `none` stands for the end of the text.
-/

namespace Verif
open Py

/-- Class of characters, extended to the end of text. -/
def inClass (p : Char → Bool) : Option Char → Bool
  | some c => p c
  | none => false

/-- `r` does not consume a text that begins with `c`. -/
def RE.cant : RE → Option Char → Bool
  | .eps, _ => true
  | .chr p, c => !inClass p c
  | .many p, c => !inClass p c
  | .seq a b, c => a.cant c && b.cant c
  | .alt a b, c => a.cant c && b.cant c
  | .bound _, _ => true

/-- `r` does not match a text that begins with `c`. -/
def RE.nope : RE → Option Char → Bool
  | .eps, _ => false
  | .chr p, c => !inClass p c
  | .many _, _ => false
  | .seq a b, c => a.nope c || (a.cant c && b.nope c)
  | .alt a b, c => a.nope c && b.nope c
  | .bound w, c => inClass w c

theorem RE.cant_spec (r : RE) (s : Str) (h : r.cant s.head? = true) : ∀ t ∈ r.rests s, t = s := by
  induction r generalizing s with
  | eps => simp [RE.rests]
  | chr p =>
    cases s with
    | nil => simp [RE.rests]
    | cons c s =>
      simp only [RE.cant, inClass, List.head?_cons, Bool.not_eq_true'] at h
      simp [RE.rests, h]
  | many p =>
    cases s with
    | nil => simp [RE.rests, manyRests]
    | cons c s =>
      simp only [RE.cant, inClass, List.head?_cons, Bool.not_eq_true'] at h
      simp [RE.rests, manyRests, h]
  | seq a b iha ihb =>
    simp only [RE.cant, Bool.and_eq_true] at h
    intro t ht
    simp only [RE.rests, List.mem_flatMap] at ht
    obtain ⟨u, hu, ht⟩ := ht
    have := iha s h.1 u hu
    subst this
    exact ihb _ h.2 t ht
  | alt a b iha ihb =>
    simp only [RE.cant, Bool.and_eq_true] at h
    intro t ht
    simp only [RE.rests, List.mem_append] at ht
    rcases ht with ht | ht
    · exact iha s h.1 t ht
    · exact ihb s h.2 t ht
  | bound w =>
    intro t ht
    simp only [RE.rests] at ht
    split at ht
    · cases ht
    · simpa using ht

theorem RE.nope_spec (r : RE) (s : Str) (h : r.nope s.head? = true) : r.rests s = [] := by
  induction r generalizing s with
  | eps => simp [RE.nope] at h
  | chr p =>
    cases s with
    | nil => simp [RE.rests]
    | cons c s =>
      simp only [RE.nope, inClass, List.head?_cons, Bool.not_eq_true'] at h
      simp [RE.rests, h]
  | many p => simp [RE.nope] at h
  | seq a b iha ihb =>
    simp only [RE.nope, Bool.or_eq_true, Bool.and_eq_true] at h
    simp only [RE.rests, List.flatMap_eq_nil_iff]
    rcases h with h | ⟨h, h'⟩
    · rw [iha s h]; simp
    · intro t ht
      rw [a.cant_spec s h t ht]
      exact ihb s h'
  | alt a b iha ihb =>
    simp only [RE.nope, Bool.and_eq_true] at h
    simp [RE.rests, iha s h.1, ihb s h.2]
  | bound w =>
    cases s with
    | nil => simp [RE.nope, inClass] at h
    | cons c s =>
      simp only [RE.nope, inClass, List.head?_cons] at h
      simp [RE.rests, h]

theorem RE.match?_nope {r : RE} {s : Str} (h : r.nope s.head? = true) : r.match? s = none := by
  rw [RE.match?, r.nope_spec s h]; rfl

theorem RE.match?_cant {r : RE} {s rest : Str} (h : r.cant s.head? = true)
    (h' : r.match? s = some rest) : rest = s := by
  rw [RE.match?] at h'
  exact r.cant_spec s h _ (List.mem_of_head? h')

section
variable {N : Type} (G : N → Peg N)

mutual
/-- `p` does not consume anything of a text that begins with `c`, and `nope`: does not match it. -/
def Peg.cant : Nat → Peg N → Option Char → Bool
  | 0, _, _ => false
  | _ + 1, .lit l, c => l.isEmpty || l.head? != c
  | _ + 1, .rx r, c => r.cant c
  | f + 1, .ref n, c => Peg.cant f (G n) c
  | f + 1, .seq ps, c => Peg.cantAll f ps c
  | f + 1, .alt ps, c => Peg.cantAll f ps c
  | f + 1, .opt p, c => Peg.cant f p c
  | f + 1, .star p, c => Peg.cant f p c
  | f + 1, .plus p, c => Peg.cant f p c
  | _ + 1, .not _, _ => true
/-- None of several expressions consumes anything. -/
def Peg.cantAll : Nat → List (Peg N) → Option Char → Bool
  | 0, _, _ => false
  | _ + 1, [], _ => true
  | f + 1, p :: ps, c => Peg.cant f p c && Peg.cantAll f ps c
end

mutual
/-- `p` does not match a text that begins with `c`. -/
def Peg.nope : Nat → Peg N → Option Char → Bool
  | 0, _, _ => false
  | _ + 1, .lit l, c => !l.isEmpty && l.head? != c
  | _ + 1, .rx r, c => r.nope c
  | f + 1, .ref n, c => Peg.nope f (G n) c
  | f + 1, .seq ps, c => Peg.nopeSeq f ps c
  | f + 1, .alt ps, c => Peg.nopeAlt f ps c
  | _ + 1, .opt _, _ => false
  | _ + 1, .star _, _ => false
  | f + 1, .plus p, c => Peg.nope f p c
  | _ + 1, .not _, _ => false
/-- A sequence does not match. -/
def Peg.nopeSeq : Nat → List (Peg N) → Option Char → Bool
  | 0, _, _ => false
  | _ + 1, [], _ => false
  | f + 1, p :: ps, c => Peg.nope f p c || (Peg.cant G f p c && Peg.nopeSeq f ps c)
/-- None of the alternatives matches. -/
def Peg.nopeAlt : Nat → List (Peg N) → Option Char → Bool
  | 0, _, _ => false
  | _ + 1, [], _ => true
  | f + 1, p :: ps, c => Peg.nope f p c && Peg.nopeAlt f ps c
end

theorem isPrefixOf_head {l s : Str} (h : l.isPrefixOf s = true) (hl : l ≠ []) : l.head? = s.head? := by
  cases l with
  | nil => exact absurd rfl hl
  | cons a l =>
    cases s with
    | nil => simp [List.isPrefixOf] at h
    | cons b s =>
      simp only [List.isPrefixOf, Bool.and_eq_true, beq_iff_eq] at h
      simp [h.1]

/-- What `cant` means for the results of the parser. -/
theorem cant_run (k : Nat) : ∀ f,
    (∀ (p : Peg N) (s rest : Str) (t : PTree N), Peg.cant G k p s.head? = true →
      run G f p s = .ok t rest → rest = s) ∧
    (∀ (ps : List (Peg N)) (s rest : Str) (ts : List (PTree N)), Peg.cantAll G k ps s.head? = true →
      runSeq G f ps s = .ok ts rest → rest = s) ∧
    (∀ (ps : List (Peg N)) (s rest : Str) (t : PTree N), Peg.cantAll G k ps s.head? = true →
      runAlt G f ps s = .ok t rest → rest = s) ∧
    (∀ (p : Peg N) (s rest : Str) (ts : List (PTree N)), Peg.cant G k p s.head? = true →
      runStar G f p s = .ok ts rest → rest = s) ∧
    (∀ (p : Peg N) (s rest : Str) (ts : List (PTree N)), Peg.cant G k p s.head? = true →
      runPlus G f p s = .ok ts rest → rest = s) := by
  induction k with
  | zero => intro f; refine ⟨?_, ?_, ?_, ?_, ?_⟩ <;> intro p s rest t h <;> simp [Peg.cant, Peg.cantAll] at h
  | succ k ih =>
    have hrun : ∀ f (p : Peg N) (s rest : Str) (t : PTree N), Peg.cant G (k+1) p s.head? = true →
        run G f p s = .ok t rest → rest = s := by
      intro f p s rest t h h'
      cases f with
      | zero => simp [run] at h'
      | succ f =>
        cases p with
        | lit l =>
          simp only [run, runLit] at h'
          split at h'
          · rename_i hp
            simp only [PRes.ok.injEq] at h'
            simp only [Peg.cant, Bool.or_eq_true, List.isEmpty_iff, bne_iff_ne, ne_eq] at h
            rcases h with h | h
            · rw [← h'.2, h]; simp
            · by_cases hl : l = []
              · rw [← h'.2, hl]; simp
              · exact absurd (isPrefixOf_head hp hl) h
          · cases h'
        | rx r =>
          simp only [run, runRx] at h'
          split at h'
          · rename_i r' hr
            simp only [PRes.ok.injEq] at h'
            rw [← h'.2]
            exact RE.match?_cant h hr
          · cases h'
        | ref n =>
          simp only [run] at h'
          cases hr : run G f (G n) s with
          | ok t' r' =>
            rw [hr] at h'
            simp only [PRes.map, PRes.ok.injEq] at h'
            rw [← h'.2]
            exact (ih f).1 _ _ _ _ h hr
          | fail => rw [hr] at h'; cases h'
          | timeout => rw [hr] at h'; cases h'
        | seq ps =>
          simp only [run] at h'
          cases hr : runSeq G f ps s with
          | ok t' r' =>
            rw [hr] at h'
            simp only [wrapMany, PRes.ok.injEq] at h'
            rw [← h'.2]
            exact (ih f).2.1 _ _ _ _ h hr
          | fail => rw [hr] at h'; cases h'
          | timeout => rw [hr] at h'; cases h'
        | alt ps =>
          simp only [run] at h'
          cases hr : runAlt G f ps s with
          | ok t' r' =>
            rw [hr] at h'
            simp only [wrapOne, PRes.ok.injEq] at h'
            rw [← h'.2]
            exact (ih f).2.2.1 _ _ _ _ h hr
          | fail => rw [hr] at h'; cases h'
          | timeout => rw [hr] at h'; cases h'
        | opt p =>
          simp only [run] at h'
          cases hr : run G f p s with
          | ok t' r' =>
            rw [hr] at h'
            simp only [wrapOpt, PRes.ok.injEq] at h'
            rw [← h'.2]
            exact (ih f).1 _ _ _ _ h hr
          | fail =>
            rw [hr] at h'
            simp only [wrapOpt, PRes.ok.injEq] at h'
            exact h'.2.symm
          | timeout => rw [hr] at h'; cases h'
        | star p =>
          simp only [run] at h'
          cases hr : runStar G f p s with
          | ok t' r' =>
            rw [hr] at h'
            simp only [wrapMany, PRes.ok.injEq] at h'
            rw [← h'.2]
            exact (ih f).2.2.2.1 _ _ _ _ h hr
          | fail => rw [hr] at h'; cases h'
          | timeout => rw [hr] at h'; cases h'
        | plus p =>
          simp only [run] at h'
          cases hr : runPlus G f p s with
          | ok t' r' =>
            rw [hr] at h'
            simp only [wrapMany, PRes.ok.injEq] at h'
            rw [← h'.2]
            exact (ih f).2.2.2.2 _ _ _ _ h hr
          | fail => rw [hr] at h'; cases h'
          | timeout => rw [hr] at h'; cases h'
        | not p =>
          simp only [run] at h'
          cases hr : run G f p s with
          | fail =>
            rw [hr] at h'
            simp only [wrapNot, PRes.ok.injEq] at h'
            exact h'.2.symm
          | ok t' r' => rw [hr] at h'; cases h'
          | timeout => rw [hr] at h'; cases h'
    intro f
    refine ⟨hrun f, ?_, ?_, ?_, ?_⟩
    · intro ps s rest ts h h'
      cases f with
      | zero => simp [runSeq] at h'
      | succ f =>
        cases ps with
        | nil => simp only [runSeq, PRes.ok.injEq] at h'; exact h'.2.symm
        | cons p ps =>
          simp only [Peg.cantAll, Bool.and_eq_true] at h
          simp only [runSeq] at h'
          cases hr : run G f p s with
          | ok t' r' =>
            rw [hr] at h'
            have := (ih f).1 _ _ _ _ h.1 hr
            subst this
            cases hr2 : runSeq G f ps r' with
            | ok t2 r2 =>
              simp only [hr2, PRes.map, PRes.ok.injEq] at h'
              rw [← h'.2]
              exact (ih f).2.1 _ _ _ _ h.2 hr2
            | fail => simp only [hr2, PRes.map] at h'; cases h'
            | timeout => simp only [hr2, PRes.map] at h'; cases h'
          | fail => rw [hr] at h'; cases h'
          | timeout => rw [hr] at h'; cases h'
    · intro ps s rest t h h'
      cases f with
      | zero => simp [runAlt] at h'
      | succ f =>
        cases ps with
        | nil => simp [runAlt] at h'
        | cons p ps =>
          simp only [Peg.cantAll, Bool.and_eq_true] at h
          simp only [runAlt] at h'
          cases hr : run G f p s with
          | ok t' r' =>
            rw [hr] at h'
            simp only [PRes.ok.injEq] at h'
            rw [← h'.2]
            exact (ih f).1 _ _ _ _ h.1 hr
          | fail => rw [hr] at h'; exact (ih f).2.2.1 _ _ _ _ h.2 h'
          | timeout => rw [hr] at h'; cases h'
    · intro p s rest t h h'
      cases f with
      | zero => simp [runStar] at h'
      | succ f =>
        simp only [runStar] at h'
        cases hr : run G f p s with
        | ok t' r' =>
          rw [hr] at h'
          have := hrun f _ _ _ _ h hr
          subst this
          simp only [if_true, PRes.ok.injEq] at h'
          exact h'.2.symm
        | fail => rw [hr] at h'; simp only [PRes.ok.injEq] at h'; exact h'.2.symm
        | timeout => rw [hr] at h'; cases h'
    · intro p s rest t h h'
      cases f with
      | zero => simp [runPlus] at h'
      | succ f =>
        simp only [runPlus] at h'
        cases hr : run G f p s with
        | ok t' r' =>
          rw [hr] at h'
          have := hrun f _ _ _ _ h hr
          subst this
          simp only [if_true, PRes.ok.injEq] at h'
          exact h'.2.symm
        | fail => rw [hr] at h'; cases h'
        | timeout => rw [hr] at h'; cases h'

/-- What `nope` means for the results of the parser. -/
theorem nope_run (k : Nat) : ∀ f,
    (∀ (p : Peg N) (s rest : Str) (t : PTree N), Peg.nope G k p s.head? = true →
      run G f p s ≠ .ok t rest) ∧
    (∀ (ps : List (Peg N)) (s rest : Str) (ts : List (PTree N)), Peg.nopeSeq G k ps s.head? = true →
      runSeq G f ps s ≠ .ok ts rest) ∧
    (∀ (ps : List (Peg N)) (s rest : Str) (t : PTree N), Peg.nopeAlt G k ps s.head? = true →
      runAlt G f ps s ≠ .ok t rest) := by
  induction k with
  | zero => intro f; refine ⟨?_, ?_, ?_⟩ <;> intro p s rest t h <;>
      simp [Peg.nope, Peg.nopeSeq, Peg.nopeAlt] at h
  | succ k ih =>
    intro f
    cases f with
    | zero => simp [run, runSeq, runAlt]
    | succ f =>
      refine ⟨?_, ?_, ?_⟩
      · intro p s rest t h h'
        cases p with
        | lit l =>
          simp only [run, runLit] at h'
          split at h'
          · rename_i hp
            simp only [Peg.nope, Bool.and_eq_true, Bool.not_eq_true', List.isEmpty_eq_false_iff,
              bne_iff_ne, ne_eq] at h
            exact h.2 (isPrefixOf_head hp h.1)
          · cases h'
        | rx r =>
          simp only [run, runRx] at h'
          rw [RE.match?_nope (by simpa [Peg.nope] using h)] at h'
          cases h'
        | ref n =>
          simp only [run] at h'
          cases hr : run G f (G n) s with
          | ok t' r' => exact (ih f).1 _ _ _ _ h hr
          | fail => rw [hr] at h'; cases h'
          | timeout => rw [hr] at h'; cases h'
        | seq ps =>
          simp only [run] at h'
          cases hr : runSeq G f ps s with
          | ok t' r' => exact (ih f).2.1 _ _ _ _ h hr
          | fail => rw [hr] at h'; cases h'
          | timeout => rw [hr] at h'; cases h'
        | alt ps =>
          simp only [run] at h'
          cases hr : runAlt G f ps s with
          | ok t' r' => exact (ih f).2.2 _ _ _ _ h hr
          | fail => rw [hr] at h'; cases h'
          | timeout => rw [hr] at h'; cases h'
        | opt p => simp [Peg.nope] at h
        | star p => simp [Peg.nope] at h
        | plus p =>
          simp only [run] at h'
          cases f with
          | zero => simp [runPlus, wrapMany] at h'
          | succ f =>
            simp only [runPlus] at h'
            cases hr : run G f p s with
            | ok t' r' => exact (ih f).1 _ _ _ _ h hr
            | fail => rw [hr] at h'; cases h'
            | timeout => rw [hr] at h'; cases h'
        | not p => simp [Peg.nope] at h
      · intro ps s rest ts h h'
        cases ps with
        | nil => simp [Peg.nopeSeq] at h
        | cons p ps =>
          simp only [Peg.nopeSeq, Bool.or_eq_true, Bool.and_eq_true] at h
          simp only [runSeq] at h'
          cases hr : run G f p s with
          | ok t' r' =>
            rcases h with h | ⟨h, h2⟩
            · exact (ih f).1 _ _ _ _ h hr
            · rw [hr] at h'
              have := (cant_run G k f).1 _ _ _ _ h hr
              subst this
              cases hr2 : runSeq G f ps r' with
              | ok t2 r2 => exact (ih f).2.1 _ _ _ _ h2 hr2
              | fail => simp only [hr2, PRes.map] at h'; cases h'
              | timeout => simp only [hr2, PRes.map] at h'; cases h'
          | fail => rw [hr] at h'; cases h'
          | timeout => rw [hr] at h'; cases h'
      · intro ps s rest t h h'
        cases ps with
        | nil => simp [runAlt] at h'
        | cons p ps =>
          simp only [Peg.nopeAlt, Bool.and_eq_true] at h
          simp only [runAlt] at h'
          cases hr : run G f p s with
          | ok t' r' => exact (ih f).1 _ _ _ _ h.1 hr
          | fail => rw [hr] at h'; exact (ih f).2.2 _ _ _ _ h.2 h'
          | timeout => rw [hr] at h'; cases h'

end
end Verif
