import Verif.Model.Peg

/-
Facts about the parser that hold for every grammar: more fuel does not change a result, what was matched
is a prefix of the text, and a grammar without left recursion always gives a result.
-/

namespace Verif
open Py

/-! ### Regular expressions -/

theorem manyRests_suffix (p : Char → Bool) : ∀ (s r : Str), r ∈ manyRests p s → r <:+ s
  | [], r, h => by simp [manyRests] at h; simp [h]
  | c :: s, r, h => by
    rw [manyRests] at h
    split at h
    · rw [List.mem_append] at h
      rcases h with h | h
      · exact (manyRests_suffix p s r h).trans (List.suffix_cons c s)
      · simp at h; simp [h]
    · simp at h; simp [h]

theorem RE.rests_suffix : ∀ (r : RE) (s t : Str), t ∈ r.rests s → t <:+ s
  | .eps, s, t, h => by simp [RE.rests] at h; simp [h]
  | .chr p, [], t, h => by simp [RE.rests] at h
  | .chr p, c :: s, t, h => by
    rw [RE.rests] at h
    split at h
    · simp at h; subst h; exact List.suffix_cons c t
    · simp at h
  | .many p, s, t, h => manyRests_suffix p s t h
  | .seq a b, s, t, h => by
    rw [RE.rests, List.mem_flatMap] at h
    obtain ⟨u, hu, ht⟩ := h
    exact (RE.rests_suffix b u t ht).trans (RE.rests_suffix a s u hu)
  | .alt a b, s, t, h => by
    rw [RE.rests, List.mem_append] at h
    rcases h with h | h
    · exact RE.rests_suffix a s t h
    · exact RE.rests_suffix b s t h
  | .bound w, s, t, h => by
    rw [RE.rests] at h
    split at h
    · simp at h
    · simp at h; simp [h]

theorem RE.match?_suffix {r : RE} {s t : Str} (h : r.match? s = some t) : t <:+ s :=
  RE.rests_suffix r s t (List.mem_of_head? h)

/-- May the expression match the empty text? (`true` is always a safe answer.) -/
def RE.nullable : RE → Bool
  | .eps => true
  | .chr _ => false
  | .many _ => true
  | .seq a b => a.nullable && b.nullable
  | .alt a b => a.nullable || b.nullable
  | .bound _ => true

theorem RE.rests_shorter : ∀ (r : RE) (s t : Str), r.nullable = false → t ∈ r.rests s →
    t.length < s.length
  | .eps, s, t, hn, h => by simp [RE.nullable] at hn
  | .chr p, [], t, hn, h => by simp [RE.rests] at h
  | .chr p, c :: s, t, hn, h => by
    rw [RE.rests] at h
    split at h
    · simp at h; subst h; simp
    · simp at h
  | .many p, s, t, hn, h => by simp [RE.nullable] at hn
  | .seq a b, s, t, hn, h => by
    rw [RE.rests, List.mem_flatMap] at h
    obtain ⟨u, hu, ht⟩ := h
    have h1 := (RE.rests_suffix a s u hu).length_le
    have h2 := (RE.rests_suffix b u t ht).length_le
    rw [RE.nullable, Bool.and_eq_false_iff] at hn
    rcases hn with hn | hn
    · have := RE.rests_shorter a s u hn hu; omega
    · have := RE.rests_shorter b u t hn ht; omega
  | .alt a b, s, t, hn, h => by
    rw [RE.nullable, Bool.or_eq_false_iff] at hn
    rw [RE.rests, List.mem_append] at h
    rcases h with h | h
    · exact RE.rests_shorter a s t hn.1 h
    · exact RE.rests_shorter b s t hn.2 h
  | .bound w, s, t, hn, h => by simp [RE.nullable] at hn

/-! ### Fuel -/

section
variable {N : Type} (G : N → Peg N)

/-- `r'` is `r`, unless `r` is a timeout. -/
def Extends {α : Type} (r r' : PRes α) : Prop := r ≠ .timeout → r' = r

theorem Extends.refl {α : Type} (r : PRes α) : Extends r r := fun _ => rfl

theorem Extends.timeout {α : Type} (r : PRes α) : Extends .timeout r := fun h => absurd rfl h

theorem Extends.map {α β : Type} (f : α → β) {r r' : PRes α} (h : Extends r r') :
    Extends (r.map f) (r'.map f) := by
  intro hn
  rw [h (by rintro rfl; exact hn rfl)]

theorem Extends.wrapMany {s : Str} {r r' : PRes (List (PTree N))} (h : Extends r r') :
    Extends (Verif.wrapMany s r) (Verif.wrapMany s r') := by
  intro hn
  rw [h (by rintro rfl; exact hn rfl)]

theorem Extends.wrapOne {s : Str} {r r' : PRes (PTree N)} (h : Extends r r') :
    Extends (Verif.wrapOne s r) (Verif.wrapOne s r') := by
  intro hn
  rw [h (by rintro rfl; exact hn rfl)]

theorem Extends.wrapOpt {s : Str} {r r' : PRes (PTree N)} (h : Extends r r') :
    Extends (Verif.wrapOpt s r) (Verif.wrapOpt s r') := by
  intro hn
  rw [h (by rintro rfl; exact hn rfl)]

theorem Extends.wrapNot {s : Str} {r r' : PRes (PTree N)} (h : Extends r r') :
    Extends (Verif.wrapNot s r) (Verif.wrapNot s r') := by
  intro hn
  rw [h (by rintro rfl; exact hn rfl)]

/-- One more unit of fuel does not change a result. -/
theorem run_extends (f : Nat) :
    (∀ p s, Extends (run G f p s) (run G (f + 1) p s)) ∧
    (∀ ps s, Extends (runSeq G f ps s) (runSeq G (f + 1) ps s)) ∧
    (∀ ps s, Extends (runAlt G f ps s) (runAlt G (f + 1) ps s)) ∧
    (∀ p s, Extends (runStar G f p s) (runStar G (f + 1) p s)) ∧
    (∀ p s, Extends (runPlus G f p s) (runPlus G (f + 1) p s)) ∧
    (∀ p s, Extends (runMore G f p s) (runMore G (f + 1) p s)) := by
  induction f with
  | zero =>
    refine ⟨?_, ?_, ?_, ?_, ?_, ?_⟩ <;> intro p s <;>
      simp only [run, runSeq, runAlt, runStar, runPlus, runMore] <;> exact Extends.timeout _
  | succ f ih =>
    obtain ⟨h1, h2, h3, h4, h5, h6⟩ := ih
    have key : ∀ {α : Type} (p : Peg N) (s : Str) (k k' : PTree N → Str → PRes α) (g g' : PRes α),
        (∀ c r, Extends (k c r) (k' c r)) → Extends g g' →
        Extends
          (match run G f p s with
            | .ok c rest => k c rest
            | .fail => g
            | .timeout => .timeout)
          (match run G (f + 1) p s with
            | .ok c rest => k' c rest
            | .fail => g'
            | .timeout => .timeout) := by
      intro α p s k k' g g' hk hg
      have hp := h1 p s
      cases hr : run G f p s with
      | timeout => exact Extends.timeout _
      | fail => rw [hp (by rw [hr]; simp), hr]; exact hg
      | ok c r => rw [hp (by rw [hr]; simp), hr]; exact hk c r
    refine ⟨?_, ?_, ?_, ?_, ?_, ?_⟩
    · intro p s
      cases p with
      | lit l => simp only [run]; exact Extends.refl _
      | rx r => simp only [run]; exact Extends.refl _
      | ref n => rw [run, run]; exact (h1 _ _).map _
      | seq ps => rw [run, run]; exact (h2 _ _).wrapMany
      | alt ps => rw [run, run]; exact (h3 _ _).wrapOne
      | opt p => rw [run, run]; exact (h1 _ _).wrapOpt
      | star p => rw [run, run]; exact (h4 _ _).wrapMany
      | plus p => rw [run, run]; exact (h5 _ _).wrapMany
      | not p => rw [run, run]; exact (h1 _ _).wrapNot
    · intro ps s
      cases ps with
      | nil => simp only [runSeq]; exact Extends.refl _
      | cons p ps =>
        rw [runSeq, runSeq]
        exact key p s _ _ _ _ (fun c r => (h2 ps r).map _) (Extends.refl _)
    · intro ps s
      cases ps with
      | nil => simp only [runAlt]; exact Extends.refl _
      | cons p ps =>
        rw [runAlt, runAlt]
        exact key p s _ _ _ _ (fun c r => Extends.refl _) (h3 ps s)
    · intro p s
      rw [runStar, runStar]
      refine key p s _ _ _ _ (fun c r => ?_) (Extends.refl _)
      split
      · exact Extends.refl _
      · exact (h4 p r).map _
    · intro p s
      rw [runPlus, runPlus]
      refine key p s _ _ _ _ (fun c r => ?_) (Extends.refl _)
      split
      · exact Extends.refl _
      · exact (h6 p r).map _
    · intro p s
      rw [runMore, runMore]
      refine key p s _ _ _ _ (fun c r => ?_) (Extends.refl _)
      split
      · exact Extends.refl _
      · exact (h6 p r).map _

theorem run_mono {f f' : Nat} (hle : f ≤ f') {p : Peg N} {s : Str} {r : PRes (PTree N)}
    (h : run G f p s = r) (hr : r ≠ .timeout) : run G f' p s = r := by
  induction hle with
  | refl => exact h
  | step _ ih => rw [(run_extends G _).1 p s (by rw [ih]; exact hr)]; exact ih

theorem runSeq_mono {f f' : Nat} (hle : f ≤ f') {p : List (Peg N)} {s : Str}
    {r : PRes (List (PTree N))}
    (h : runSeq G f p s = r) (hr : r ≠ .timeout) : runSeq G f' p s = r := by
  induction hle with
  | refl => exact h
  | step _ ih => rw [(run_extends G _).2.1 p s (by rw [ih]; exact hr)]; exact ih

theorem runAlt_mono {f f' : Nat} (hle : f ≤ f') {p : List (Peg N)} {s : Str}
    {r : PRes (PTree N)}
    (h : runAlt G f p s = r) (hr : r ≠ .timeout) : runAlt G f' p s = r := by
  induction hle with
  | refl => exact h
  | step _ ih => rw [(run_extends G _).2.2.1 p s (by rw [ih]; exact hr)]; exact ih

theorem runStar_mono {f f' : Nat} (hle : f ≤ f') {p : Peg N} {s : Str}
    {r : PRes (List (PTree N))}
    (h : runStar G f p s = r) (hr : r ≠ .timeout) : runStar G f' p s = r := by
  induction hle with
  | refl => exact h
  | step _ ih => rw [(run_extends G _).2.2.2.1 p s (by rw [ih]; exact hr)]; exact ih

theorem runPlus_mono {f f' : Nat} (hle : f ≤ f') {p : Peg N} {s : Str}
    {r : PRes (List (PTree N))}
    (h : runPlus G f p s = r) (hr : r ≠ .timeout) : runPlus G f' p s = r := by
  induction hle with
  | refl => exact h
  | step _ ih => rw [(run_extends G _).2.2.2.2.1 p s (by rw [ih]; exact hr)]; exact ih

theorem runMore_mono {f f' : Nat} (hle : f ≤ f') {p : Peg N} {s : Str}
    {r : PRes (List (PTree N))}
    (h : runMore G f p s = r) (hr : r ≠ .timeout) : runMore G f' p s = r := by
  induction hle with
  | refl => exact h
  | step _ ih => rw [(run_extends G _).2.2.2.2.2 p s (by rw [ih]; exact hr)]; exact ih

/-! ### What was matched is a prefix of the text -/

theorem consumed_append {s r : Str} (h : r <:+ s) : consumed s r ++ r = s := by
  obtain ⟨t, rfl⟩ := h
  simp [consumed]

theorem consumed_of_append (t r : Str) : consumed (t ++ r) r = t := by
  simp [consumed]

theorem consumed_self (s : Str) : consumed s s = [] := by simp [consumed]

/-- The texts of nodes, one after another. -/
def texts {N : Type} (cs : List (PTree N)) : Str := (cs.map PTree.text).flatten

@[simp] theorem texts_nil {N : Type} : texts ([] : List (PTree N)) = [] := rfl
@[simp] theorem texts_cons {N : Type} (c : PTree N) (cs) : texts (c :: cs) = c.text ++ texts cs := by
  simp [texts]

mutual
/-- The text of each node that has children consists of the texts of the children. -/
def Whole {N : Type} : PTree N → Prop
  | .node _ t cs => (cs = [] ∨ t = texts cs) ∧ WholeAll cs
/-- The same for all nodes of a list. -/
def WholeAll {N : Type} : List (PTree N) → Prop
  | [] => True
  | c :: cs => Whole c ∧ WholeAll cs
end

/-- A node matched the part of `s` before `rest`. -/
def NodeOk {N : Type} (s : Str) : PRes (PTree N) → Prop
  | .ok t rest => t.text ++ rest = s ∧ Whole t
  | _ => True

/-- A list of nodes matched the part of `s` before `rest`. -/
def NodesOk {N : Type} (s : Str) : PRes (List (PTree N)) → Prop
  | .ok ts rest => texts ts ++ rest = s ∧ WholeAll ts
  | _ => True

theorem NodeOk.rename {s : Str} {r : PRes (PTree N)} (n : N) (h : NodeOk s r) :
    NodeOk s (r.map (PTree.rename n)) := by
  cases r with
  | fail => trivial
  | timeout => trivial
  | ok t rest => obtain ⟨_, tx, cs⟩ := t; simpa [NodeOk, PRes.map, PTree.rename, PTree.text, Whole] using h

theorem NodesOk.wrapMany {s : Str} {r : PRes (List (PTree N))} (h : NodesOk s r) :
    NodeOk s (Verif.wrapMany s r) := by
  cases r with
  | fail => trivial
  | timeout => trivial
  | ok ts rest =>
    obtain ⟨h1, h2⟩ := h
    subst h1
    refine ⟨?_, ?_⟩
    · simp [anon, PTree.text, consumed_of_append]
    · simp [anon, Whole, consumed_of_append, h2]

theorem NodeOk.wrapOne {s : Str} {r : PRes (PTree N)} (h : NodeOk s r) :
    NodeOk s (Verif.wrapOne s r) := by
  cases r with
  | fail => trivial
  | timeout => trivial
  | ok t rest =>
    obtain ⟨h1, h2⟩ := h
    subst h1
    refine ⟨?_, ?_⟩
    · simp [anon, PTree.text, consumed_of_append]
    · simp [anon, Whole, WholeAll, consumed_of_append, h2]

theorem NodeOk.wrapOpt {s : Str} {r : PRes (PTree N)} (h : NodeOk s r) :
    NodeOk s (Verif.wrapOpt s r) := by
  cases r with
  | fail => simp [Verif.wrapOpt, NodeOk, anon, PTree.text, consumed_self, Whole, WholeAll]
  | timeout => trivial
  | ok t rest => exact NodeOk.wrapOne (r := .ok t rest) h

theorem NodeOk.wrapNot {s : Str} (r : PRes (PTree N)) : NodeOk s (Verif.wrapNot s r) := by
  cases r with
  | fail => simp [Verif.wrapNot, NodeOk, anon, PTree.text, consumed_self, Whole, WholeAll]
  | timeout => trivial
  | ok t rest => trivial

theorem NodesOk.cons {c : PTree N} {rest : Str} {s : Str} {r : PRes (List (PTree N))}
    (hc : c.text ++ rest = s) (hw : Whole c) (h : NodesOk rest r) : NodesOk s (r.map (c :: ·)) := by
  cases r with
  | fail => trivial
  | timeout => trivial
  | ok ts r =>
    obtain ⟨h1, h2⟩ := h
    subst h1
    exact ⟨by simpa using hc, hw, h2⟩

theorem run_whole (f : Nat) :
    (∀ p s, NodeOk s (run G f p s)) ∧ (∀ ps s, NodesOk s (runSeq G f ps s)) ∧
    (∀ ps s, NodeOk s (runAlt G f ps s)) ∧ (∀ p s, NodesOk s (runStar G f p s)) ∧
    (∀ p s, NodesOk s (runPlus G f p s)) ∧ (∀ p s, NodesOk s (runMore G f p s)) := by
  induction f with
  | zero =>
    refine ⟨?_, ?_, ?_, ?_, ?_, ?_⟩ <;> intro p s <;>
      simp only [run, runSeq, runAlt, runStar, runPlus, runMore] <;> trivial
  | succ f ih =>
    obtain ⟨h1, h2, h3, h4, h5, h6⟩ := ih
    refine ⟨?_, ?_, ?_, ?_, ?_, ?_⟩
    · intro p s
      cases p with
      | lit l =>
        simp only [run, runLit]
        split
        · rename_i h
          obtain ⟨t, rfl⟩ := List.isPrefixOf_iff_prefix.1 h
          simp [NodeOk, anon, PTree.text, consumed_of_append, Whole, WholeAll]
        · trivial
      | rx r =>
        simp only [run, runRx]
        split
        · rename_i rest h
          have := RE.match?_suffix h
          simp [NodeOk, anon, PTree.text, consumed_append this, Whole, WholeAll]
        · trivial
      | ref n => rw [run]; exact (h1 _ _).rename n
      | seq ps => rw [run]; exact (h2 _ _).wrapMany
      | alt ps => rw [run]; exact (h3 _ _).wrapOne
      | opt p => rw [run]; exact (h1 _ _).wrapOpt
      | star p => rw [run]; exact (h4 _ _).wrapMany
      | plus p => rw [run]; exact (h5 _ _).wrapMany
      | not p => rw [run]; exact NodeOk.wrapNot _
    · intro ps s
      cases ps with
      | nil => simp [runSeq, NodesOk, WholeAll]
      | cons p ps =>
        rw [runSeq]
        have hp := h1 p s
        split
        · rename_i c rest hr
          rw [hr] at hp
          exact NodesOk.cons hp.1 hp.2 (h2 ps rest)
        · trivial
        · trivial
    · intro ps s
      cases ps with
      | nil => simp [runAlt, NodeOk]
      | cons p ps =>
        rw [runAlt]
        have hp := h1 p s
        split
        · rename_i c rest hr
          rw [hr] at hp
          exact hp
        · exact h3 ps s
        · trivial
    all_goals
      intro p s
      simp only [runStar, runPlus, runMore]
      have hp := h1 p s
      split
      · rename_i c rest hr
        rw [hr] at hp
        split
        · first
          | (simp [NodesOk, WholeAll]; done)
          | (rename_i hl
             have hr' : rest = s := by
               obtain ⟨hp, -⟩ := hp
               have : c.text = [] := List.eq_nil_of_length_eq_zero (by
                 have := congrArg List.length hp; simp at this; omega)
               rw [this] at hp; simpa using hp
             subst hr'
             exact ⟨by simpa using hp.1, hp.2, trivial⟩)
        · first
          | exact NodesOk.cons hp.1 hp.2 (h4 p rest)
          | exact NodesOk.cons hp.1 hp.2 (h6 p rest)
      · first
        | trivial
        | simp [NodesOk, WholeAll]
      · trivial

theorem run_suffix {f : Nat} {p : Peg N} {s rest : Str} {t : PTree N}
    (h : run G f p s = .ok t rest) : rest <:+ s := by
  have := (run_whole G f).1 p s
  rw [h] at this
  exact ⟨_, this.1⟩

/-! ### Termination -/

mutual
/-- May the expression match the empty text, given the answers for the rules? -/
def Peg.nullable (nul : N → Bool) : Peg N → Bool
  | .lit l => l.isEmpty
  | .rx r => r.nullable
  | .ref n => nul n
  | .seq ps => Peg.nullableAll nul ps
  | .alt ps => Peg.nullableAny nul ps
  | .opt _ => true
  | .star _ => true
  | .plus p => p.nullable nul
  | .not _ => true
/-- May all match the empty text? -/
def Peg.nullableAll (nul : N → Bool) : List (Peg N) → Bool
  | [] => true
  | p :: ps => p.nullable nul && Peg.nullableAll nul ps
/-- May any match the empty text? -/
def Peg.nullableAny (nul : N → Bool) : List (Peg N) → Bool
  | [] => false
  | p :: ps => p.nullable nul || Peg.nullableAny nul ps
end

mutual
/-- All rules that may be tried at the very beginning of the expression have a rank below `k`. -/
def Peg.leftBelow (nul : N → Bool) (rank : N → Nat) (k : Nat) : Peg N → Bool
  | .lit _ => true
  | .rx _ => true
  | .ref n => decide (rank n < k)
  | .seq ps => Peg.leftBelowSeq nul rank k ps
  | .alt ps => Peg.leftBelowAll nul rank k ps
  | .opt p => p.leftBelow nul rank k
  | .star p => p.leftBelow nul rank k
  | .plus p => p.leftBelow nul rank k
  | .not p => p.leftBelow nul rank k
/-- The same for a sequence. -/
def Peg.leftBelowSeq (nul : N → Bool) (rank : N → Nat) (k : Nat) : List (Peg N) → Bool
  | [] => true
  | p :: ps => p.leftBelow nul rank k && (!(p.nullable nul) || Peg.leftBelowSeq nul rank k ps)
/-- The same for all of a list. -/
def Peg.leftBelowAll (nul : N → Bool) (rank : N → Nat) (k : Nat) : List (Peg N) → Bool
  | [] => true
  | p :: ps => p.leftBelow nul rank k && Peg.leftBelowAll nul rank k ps
end

mutual
/-- Size of an expression. -/
def Peg.size : Peg N → Nat
  | .lit _ => 1
  | .rx _ => 1
  | .ref _ => 1
  | .seq ps => 1 + Peg.sizes ps
  | .alt ps => 1 + Peg.sizes ps
  | .opt p => 1 + p.size
  | .star p => 2 + p.size
  | .plus p => 3 + p.size
  | .not p => 1 + p.size
/-- Size of a list of expressions. -/
def Peg.sizes : List (Peg N) → Nat
  | [] => 1
  | p :: ps => 1 + p.size + Peg.sizes ps
end

theorem Peg.size_pos (p : Peg N) : 1 ≤ p.size := by cases p <;> simp only [Peg.size] <;> omega
theorem Peg.sizes_pos (ps : List (Peg N)) : 1 ≤ Peg.sizes ps := by
  cases ps <;> simp only [Peg.sizes] <;> omega

/-- A certificate that the grammar has no left recursion. -/
structure NoLeftRec (nul : N → Bool) (rank : N → Nat) (K S : Nat) : Prop where
  nullable : ∀ n, (G n).nullable nul = true → nul n = true
  left : ∀ n, (G n).leftBelow nul rank (rank n) = true
  rank_lt : ∀ n, rank n < K
  size_le : ∀ n, (G n).size ≤ S

/-- An empty match is possible only for a nullable expression. -/
def EmptyOnly {α : Type} (b : Bool) (s : Str) : PRes α → Prop
  | .ok _ rest => b = false → rest.length < s.length
  | _ => True

theorem EmptyOnly.map {α β : Type} {b : Bool} {s : Str} {r : PRes α} (g : α → β)
    (h : EmptyOnly b s r) : EmptyOnly b s (r.map g) := by
  cases r <;> exact h

theorem EmptyOnly.weaken {α : Type} {b b' : Bool} {s : Str} {r : PRes α}
    (h : EmptyOnly b s r) (hb : b' = false → b = false) : EmptyOnly b' s r := by
  cases r with
  | ok a rest => exact fun hn => h (hb hn)
  | _ => trivial

theorem EmptyOnly.wrapMany {b : Bool} {s : Str} {r : PRes (List (PTree N))}
    (h : EmptyOnly b s r) : EmptyOnly b s (Verif.wrapMany s r) := by
  cases r <;> exact h

theorem EmptyOnly.wrapOne {b : Bool} {s : Str} {r : PRes (PTree N)}
    (h : EmptyOnly b s r) : EmptyOnly b s (Verif.wrapOne s r) := by
  cases r <;> exact h

theorem EmptyOnly.nullable {α : Type} {s : Str} {r : PRes α} : EmptyOnly true s r := by
  cases r with
  | ok a rest => intro h; cases h
  | _ => trivial

theorem run_length {f : Nat} {p : Peg N} {s rest : Str} {t : PTree N}
    (h : run G f p s = .ok t rest) : rest.length ≤ s.length := (run_suffix G h).length_le

theorem runSeq_length {f : Nat} {p : List (Peg N)} {s rest : Str} {t : List (PTree N)}
    (h : runSeq G f p s = .ok t rest) : rest.length ≤ s.length := by
  have := (run_whole G f).2.1 p s
  rw [h] at this
  have := congrArg List.length this.1
  simp at this
  omega

theorem runMore_length {f : Nat} {p : Peg N} {s rest : Str} {t : List (PTree N)}
    (h : runMore G f p s = .ok t rest) : rest.length ≤ s.length := by
  have := (run_whole G f).2.2.2.2.2 p s
  rw [h] at this
  have := congrArg List.length this.1
  simp at this
  omega

theorem run_emptyOnly {nul : N → Bool} (hnul : ∀ n, (G n).nullable nul = true → nul n = true)
    (f : Nat) :
    (∀ p s, EmptyOnly (Peg.nullable nul p) s (run G f p s)) ∧
    (∀ ps s, EmptyOnly (Peg.nullableAll nul ps) s (runSeq G f ps s)) ∧
    (∀ ps s, EmptyOnly (Peg.nullableAny nul ps) s (runAlt G f ps s)) ∧
    (∀ p s, EmptyOnly (Peg.nullable nul p) s (runPlus G f p s)) := by
  induction f with
  | zero =>
    refine ⟨?_, ?_, ?_, ?_⟩ <;> intro p s <;>
      simp only [run, runSeq, runAlt, runPlus] <;> trivial
  | succ f ih =>
    obtain ⟨h1, h2, h3, h4⟩ := ih
    refine ⟨?_, ?_, ?_, ?_⟩
    · intro p s
      cases p with
      | lit l =>
        simp only [run, runLit]
        split
        · rename_i h
          obtain ⟨t, rfl⟩ := List.isPrefixOf_iff_prefix.1 h
          intro hn
          cases l with
          | nil => simp [Peg.nullable] at hn
          | cons a l => simp; omega
        · trivial
      | rx r =>
        simp only [run, runRx]
        split
        · rename_i rest h
          intro hn
          exact RE.rests_shorter r s rest hn (List.mem_of_head? h)
        · trivial
      | ref n =>
        rw [run]
        refine EmptyOnly.map _ ((h1 (G n) s).weaken ?_)
        intro hn
        rw [Peg.nullable] at hn
        cases hb : (G n).nullable nul with
        | false => rfl
        | true => rw [hnul n hb] at hn; cases hn
      | seq ps => rw [run]; exact (h2 _ _).wrapMany
      | alt ps => rw [run]; exact (h3 _ _).wrapOne
      | opt p => simp only [Peg.nullable]; exact EmptyOnly.nullable
      | star p => simp only [Peg.nullable]; exact EmptyOnly.nullable
      | plus p => rw [run]; exact (h4 _ _).wrapMany
      | not p => simp only [Peg.nullable]; exact EmptyOnly.nullable
    · intro ps s
      cases ps with
      | nil => simp only [Peg.nullableAll]; exact EmptyOnly.nullable
      | cons p ps =>
        rw [runSeq]
        have hp := h1 p s
        split
        · rename_i c rest hr
          rw [hr] at hp
          have hl := run_length G hr
          have hq := h2 ps rest
          cases hs : runSeq G f ps rest with
          | fail => trivial
          | timeout => trivial
          | ok ts r =>
            rw [hs] at hq
            have hl2 := runSeq_length G hs
            intro hn
            rw [Peg.nullableAll, Bool.and_eq_false_iff] at hn
            rcases hn with hn | hn
            · have := hp hn; omega
            · have := hq hn; omega
        · trivial
        · trivial
    · intro ps s
      cases ps with
      | nil => simp only [runAlt]; trivial
      | cons p ps =>
        rw [runAlt]
        have hp := h1 p s
        split
        · rename_i c rest hr
          rw [hr] at hp
          intro hn
          rw [Peg.nullableAny, Bool.or_eq_false_iff] at hn
          exact hp hn.1
        · refine (h3 ps s).weaken ?_
          intro hn
          rw [Peg.nullableAny, Bool.or_eq_false_iff] at hn
          exact hn.2
        · trivial
    · intro p s
      rw [runPlus]
      have hp := h1 p s
      split
      · rename_i c rest hr
        rw [hr] at hp
        have hl := run_length G hr
        split
        · intro hn
          have := hp hn
          omega
        · cases hs : runMore G f p rest with
          | fail => trivial
          | timeout => trivial
          | ok ts r =>
            have hl2 := runMore_length G hs
            intro hn
            have := hp hn
            omega
      · trivial
      · trivial

theorem PRes.map_ne_timeout {α β : Type} {g : α → β} {r : PRes α} (h : r ≠ .timeout) :
    r.map g ≠ .timeout := by cases r <;> simp_all [PRes.map]

/-- Fuel that suffices for an expression of size `z`, whose rules at the beginning have ranks below
`k`, on a text of length `n`. -/
def fuelFor (K S n k z : Nat) : Nat := z + (k + n * (K + 1)) * (S + 2)

variable {G}

theorem fuelFor_ref {K S n r k z : Nat} (h : r < k) (hz : 1 ≤ z) :
    fuelFor K S n r S + 1 ≤ fuelFor K S n k z := by
  have : (r + n * (K + 1) + 1) * (S + 2) ≤ (k + n * (K + 1)) * (S + 2) :=
    Nat.mul_le_mul_right _ (by omega)
  rw [Nat.add_mul] at this
  simp only [fuelFor]
  omega

theorem fuelFor_short {K S m n k z z' : Nat} (h : m < n) (hz : z' ≤ z) :
    fuelFor K S m K z' + 1 ≤ fuelFor K S n k z := by
  have h1 : (m + 1) * (K + 1) ≤ n * (K + 1) := Nat.mul_le_mul_right _ (by omega)
  rw [Nat.add_mul] at h1
  have : (K + m * (K + 1) + 1) * (S + 2) ≤ (k + n * (K + 1)) * (S + 2) :=
    Nat.mul_le_mul_right _ (by omega)
  rw [Nat.add_mul] at this
  simp only [fuelFor]
  omega

theorem fuelFor_sub {K S n k z z' : Nat} (hz : z' + 1 ≤ z) :
    fuelFor K S n k z' + 1 ≤ fuelFor K S n k z := by
  simp only [fuelFor]
  omega

mutual
theorem Peg.leftBelow_top {nul : N → Bool} {rank : N → Nat} {K : Nat} (h : ∀ n, rank n < K) :
    ∀ p : Peg N, p.leftBelow nul rank K = true
  | .lit _ => by simp [Peg.leftBelow]
  | .rx _ => by simp [Peg.leftBelow]
  | .ref n => by simp [Peg.leftBelow, h n]
  | .seq ps => by rw [Peg.leftBelow]; exact (Peg.leftBelow_tops h ps).1
  | .alt ps => by rw [Peg.leftBelow]; exact (Peg.leftBelow_tops h ps).2
  | .opt p => by rw [Peg.leftBelow]; exact Peg.leftBelow_top h p
  | .star p => by rw [Peg.leftBelow]; exact Peg.leftBelow_top h p
  | .plus p => by rw [Peg.leftBelow]; exact Peg.leftBelow_top h p
  | .not p => by rw [Peg.leftBelow]; exact Peg.leftBelow_top h p
theorem Peg.leftBelow_tops {nul : N → Bool} {rank : N → Nat} {K : Nat} (h : ∀ n, rank n < K) :
    ∀ ps : List (Peg N),
      Peg.leftBelowSeq nul rank K ps = true ∧ Peg.leftBelowAll nul rank K ps = true
  | [] => by simp [Peg.leftBelowSeq, Peg.leftBelowAll]
  | p :: ps => by
    have h1 := Peg.leftBelow_top (nul := nul) h p
    have h2 := Peg.leftBelow_tops (nul := nul) h ps
    simp [Peg.leftBelowSeq, Peg.leftBelowAll, h1, h2]
end

/-- The parser of a grammar without left recursion gives a result. -/
theorem NoLeftRec.run_result {nul : N → Bool} {rank : N → Nat} {K S : Nat}
    (W : NoLeftRec G nul rank K S) (f : Nat) : ∀ (n k z : Nat), fuelFor K S n k z ≤ f →
    (∀ p s, s.length ≤ n → p.leftBelow nul rank k = true → p.size ≤ z → run G f p s ≠ .timeout) ∧
    (∀ ps s, s.length ≤ n → Peg.leftBelowSeq nul rank k ps = true → Peg.sizes ps ≤ z →
      runSeq G f ps s ≠ .timeout) ∧
    (∀ ps s, s.length ≤ n → Peg.leftBelowAll nul rank k ps = true → Peg.sizes ps ≤ z →
      runAlt G f ps s ≠ .timeout) ∧
    (∀ p s, s.length ≤ n → p.leftBelow nul rank k = true → p.size + 1 ≤ z →
      runStar G f p s ≠ .timeout) ∧
    (∀ p s, s.length ≤ n → p.leftBelow nul rank k = true → p.size + 2 ≤ z →
      runPlus G f p s ≠ .timeout) ∧
    (∀ p s, s.length ≤ n → p.leftBelow nul rank k = true → p.size + 1 ≤ z →
      runMore G f p s ≠ .timeout) := by
  induction f with
  | zero =>
    intro n k z hf
    have hz : z = 0 := by simp only [fuelFor] at hf; omega
    refine ⟨?_, ?_, ?_, ?_, ?_, ?_⟩ <;> intro p s _ _ h
    · have := Peg.size_pos p; omega
    · have := Peg.sizes_pos p; omega
    · have := Peg.sizes_pos p; omega
    · omega
    · omega
    · omega
  | succ f ih =>
    intro n k z hf
    -- the first expression, then what follows
    have step : ∀ {α : Type} (p : Peg N) (s : Str) (kk : PTree N → Str → PRes α) (g : PRes α),
        s.length ≤ n → p.leftBelow nul rank k = true → p.size + 1 ≤ z →
        (∀ c r, run G f p s = .ok c r → kk c r ≠ .timeout) → (run G f p s = .fail → g ≠ .timeout) →
        (match run G f p s with
            | .ok c rest => kk c rest
            | .fail => g
            | .timeout => .timeout) ≠ .timeout := by
      intro α p s kk g hs hp hz hk hg
      have := fuelFor_sub (K := K) (S := S) (n := n) (k := k) hz
      have h := (ih n k p.size (by omega)).1 p s hs hp (Nat.le_refl _)
      cases hr : run G f p s with
      | timeout => exact absurd hr h
      | fail => exact hg hr
      | ok c r => exact hk c r hr
    refine ⟨?_, ?_, ?_, ?_, ?_, ?_⟩
    · intro p s hs hp hz
      have hz1 := Peg.size_pos p
      cases p with
      | lit l => simp only [run, runLit]; split <;> simp
      | rx r => simp only [run, runRx]; split <;> simp
      | ref m =>
        rw [run]
        have hr : rank m < k := by simpa [Peg.leftBelow] using hp
        have := fuelFor_ref (K := K) (S := S) (n := n) hr (z := z) (by omega)
        exact PRes.map_ne_timeout
          ((ih n (rank m) S (by omega)).1 (G m) s hs (W.left m) (W.size_le m))
      | seq ps =>
        rw [run]
        simp only [Peg.size] at hz
        simp only [Peg.leftBelow] at hp
        have := fuelFor_sub (K := K) (S := S) (n := n) (k := k) (z := z) (z' := Peg.sizes ps) (by omega)
        have := (ih n k (Peg.sizes ps) (by omega)).2.1 ps s hs hp (Nat.le_refl _)
        cases hr : runSeq G f ps s <;> simp_all [wrapMany]
      | alt ps =>
        rw [run]
        simp only [Peg.size] at hz
        simp only [Peg.leftBelow] at hp
        have := fuelFor_sub (K := K) (S := S) (n := n) (k := k) (z := z) (z' := Peg.sizes ps) (by omega)
        have := (ih n k (Peg.sizes ps) (by omega)).2.2.1 ps s hs hp (Nat.le_refl _)
        cases hr : runAlt G f ps s <;> simp_all [wrapOne]
      | opt p =>
        rw [run]
        simp only [Peg.size] at hz
        simp only [Peg.leftBelow] at hp
        have := fuelFor_sub (K := K) (S := S) (n := n) (k := k) (z := z) (z' := p.size) (by omega)
        have := (ih n k p.size (by omega)).1 p s hs hp (Nat.le_refl _)
        cases hr : run G f p s <;> simp_all [wrapOpt]
      | star p =>
        rw [run]
        simp only [Peg.size] at hz
        simp only [Peg.leftBelow] at hp
        have := fuelFor_sub (K := K) (S := S) (n := n) (k := k) (z := z) (z' := p.size + 1) (by omega)
        have := (ih n k (p.size + 1) (by omega)).2.2.2.1 p s hs hp (Nat.le_refl _)
        cases hr : runStar G f p s <;> simp_all [wrapMany]
      | plus p =>
        rw [run]
        simp only [Peg.size] at hz
        simp only [Peg.leftBelow] at hp
        have := fuelFor_sub (K := K) (S := S) (n := n) (k := k) (z := z) (z' := p.size + 2) (by omega)
        have := (ih n k (p.size + 2) (by omega)).2.2.2.2.1 p s hs hp (Nat.le_refl _)
        cases hr : runPlus G f p s <;> simp_all [wrapMany]
      | not p =>
        rw [run]
        simp only [Peg.size] at hz
        simp only [Peg.leftBelow] at hp
        have := fuelFor_sub (K := K) (S := S) (n := n) (k := k) (z := z) (z' := p.size) (by omega)
        have := (ih n k p.size (by omega)).1 p s hs hp (Nat.le_refl _)
        cases hr : run G f p s <;> simp_all [wrapNot]
    · intro ps s hs hp hz
      cases ps with
      | nil => simp [runSeq]
      | cons p ps =>
        rw [runSeq]
        simp only [Peg.sizes] at hz
        simp only [Peg.leftBelowSeq, Bool.and_eq_true, Bool.or_eq_true, Bool.not_eq_true'] at hp
        refine step p s _ _ hs hp.1 (by omega) (fun c r hr => PRes.map_ne_timeout ?_) (fun _ => by simp)
        have hl := run_length G hr
        by_cases hlt : r.length < s.length
        · have := fuelFor_short (K := K) (S := S) (m := r.length) (n := n) (k := k) (z := z)
            (z' := Peg.sizes ps) (by omega) (by omega)
          exact (ih r.length K (Peg.sizes ps) (by omega)).2.1 ps r (Nat.le_refl _)
            (Peg.leftBelow_tops W.rank_lt ps).1 (Nat.le_refl _)
        · have hne := (run_emptyOnly G W.nullable f).1 p s
          rw [hr] at hne
          have hnull : p.nullable nul = true := by
            cases hb : p.nullable nul with
            | true => rfl
            | false => exact absurd (hne hb) hlt
          have := fuelFor_sub (K := K) (S := S) (n := n) (k := k) (z := z) (z' := Peg.sizes ps) (by omega)
          refine (ih n k (Peg.sizes ps) (by omega)).2.1 ps r (by omega) ?_ (Nat.le_refl _)
          rcases hp.2 with h | h
          · rw [hnull] at h; cases h
          · exact h
    · intro ps s hs hp hz
      cases ps with
      | nil => simp [runAlt]
      | cons p ps =>
        rw [runAlt]
        simp only [Peg.sizes] at hz
        simp only [Peg.leftBelowAll, Bool.and_eq_true] at hp
        refine step p s _ _ hs hp.1 (by omega) (fun c r hr => by simp) (fun _ => ?_)
        have := fuelFor_sub (K := K) (S := S) (n := n) (k := k) (z := z) (z' := Peg.sizes ps) (by omega)
        exact (ih n k (Peg.sizes ps) (by omega)).2.2.1 ps s hs hp.2 (Nat.le_refl _)
    · intro p s hs hp hz
      rw [runStar]
      refine step p s _ _ hs hp (by omega) (fun c r hr => ?_) (fun _ => by simp)
      have hl := run_length G hr
      split
      · simp
      · refine PRes.map_ne_timeout ?_
        have := fuelFor_short (K := K) (S := S) (m := r.length) (n := n) (k := k) (z := z)
            (z' := z) (by omega) (by omega)
        exact (ih r.length K z (by omega)).2.2.2.1 p r (Nat.le_refl _)
          (Peg.leftBelow_top W.rank_lt p) hz
    · intro p s hs hp hz
      rw [runPlus]
      refine step p s _ _ hs hp (by omega) (fun c r hr => ?_) (fun _ => by simp)
      have hl := run_length G hr
      split
      · simp
      · refine PRes.map_ne_timeout ?_
        have := fuelFor_short (K := K) (S := S) (m := r.length) (n := n) (k := k) (z := z)
            (z' := z) (by omega) (by omega)
        exact (ih r.length K z (by omega)).2.2.2.2.2 p r (Nat.le_refl _)
          (Peg.leftBelow_top W.rank_lt p) (by omega)
    · intro p s hs hp hz
      rw [runMore]
      refine step p s _ _ hs hp (by omega) (fun c r hr => ?_) (fun _ => by simp)
      have hl := run_length G hr
      split
      · simp
      · refine PRes.map_ne_timeout ?_
        have := fuelFor_short (K := K) (S := S) (m := r.length) (n := n) (k := k) (z := z)
            (z' := z) (by omega) (by omega)
        exact (ih r.length K z (by omega)).2.2.2.2.2 p r (Nat.le_refl _)
          (Peg.leftBelow_top W.rank_lt p) hz

end
end Verif
