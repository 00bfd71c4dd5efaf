import Verif.Lemmas.Parses
import Verif.Model.Grammar
import Verif.Spec.Scripts

/-
What follows a text does not influence how the text is matched: if `t` begins with a newline, then an
expression of the grammar matches a beginning of `a ++ t` in the way it matches a beginning of `a`. There
are exceptions, which `Joinable` and `Ending` exclude; and rules that look for a newline match at the end of `a`
only if a group of indented lines is still open there, or if `a` is not empty: their `need`.
-/

namespace Verif
open Py Spec

/-! ### Regular expressions -/

/-- No class of the expression contains a newline. -/
def RE.Calm : RE → Prop
  | .eps => True
  | .chr p => p '\n' = false
  | .many p => p '\n' = false
  | .seq a b => a.Calm ∧ b.Calm
  | .alt a b => a.Calm ∧ b.Calm
  | .bound w => w '\n' = false

theorem manyRests_append {p : Char → Bool} {t : Str} (hp : p '\n' = false) (a : Str) :
    manyRests p (a ++ '\n' :: t) = (manyRests p a).map (· ++ '\n' :: t) := by
  induction a with
  | nil => simp [manyRests, hp]
  | cons c a ih =>
    simp only [List.cons_append, manyRests]
    by_cases h : p c = true
    · simp [h, ih]
    · simp [h]

theorem manyRests_append_of_stop {p : Char → Bool} {t : Str} (a : Str) (h : ∃ c ∈ a, p c = false) :
    manyRests p (a ++ t) = (manyRests p a).map (· ++ t) := by
  induction a with
  | nil => obtain ⟨c, hc, _⟩ := h; cases hc
  | cons c a ih =>
    simp only [List.cons_append, manyRests]
    by_cases hc : p c = true
    · have : ∃ c ∈ a, p c = false := by
        obtain ⟨d, hd, hn⟩ := h
        rcases List.mem_cons.1 hd with rfl | hd
        · rw [hc] at hn; cases hn
        · exact ⟨d, hd, hn⟩
      simp [hc, ih this]
    · simp [hc]

theorem flatMap_map_append {f g : Str → List Str} {t : Str} (ls : List Str)
    (h : ∀ x ∈ ls, g (x ++ t) = (f x).map (· ++ t)) :
    (ls.map (· ++ t)).flatMap g = (ls.flatMap f).map (· ++ t) := by
  induction ls with
  | nil => rfl
  | cons x ls ih =>
    simp only [List.map_cons, List.flatMap_cons, List.map_append]
    rw [h x List.mem_cons_self, ih (fun y hy => h y (List.mem_cons_of_mem _ hy))]

theorem RE.rests_append {t : Str} : ∀ (r : RE), r.Calm → ∀ a : Str,
    r.rests (a ++ '\n' :: t) = (r.rests a).map (· ++ '\n' :: t)
  | .eps, _, a => rfl
  | .chr p, h, [] => by
    have h : p '\n' = false := h
    simp [RE.rests, h]
  | .chr p, h, c :: a => by
    by_cases hc : p c = true <;> simp [RE.rests, hc]
  | .many p, h, a => manyRests_append h a
  | .seq x y, h, a => by
    simp only [RE.rests]
    rw [RE.rests_append x h.1]
    exact flatMap_map_append _ (fun z _ => RE.rests_append y h.2 z)
  | .alt x y, h, a => by
    simp only [RE.rests, List.map_append]
    rw [RE.rests_append x h.1, RE.rests_append y h.2]
  | .bound w, h, [] => by
    have h : w '\n' = false := h
    simp [RE.rests, h]
  | .bound w, h, c :: a => by
    by_cases hc : w c = true <;> simp [RE.rests, hc]

theorem RE.match?_append {t : Str} {r : RE} (h : r.Calm) (a : Str) :
    r.match? (a ++ '\n' :: t) = (r.match? a).map (· ++ '\n' :: t) := by
  unfold RE.match?
  rw [RE.rests_append r h]
  cases r.rests a <;> rfl

/-! ### Marks -/

section
variable (M : Marks)

/-- Closing marks less opening marks. -/
def net : Str → Int
  | [] => 0
  | c :: s => net s + (if c = M.dedentS ∨ c = M.dedentT then 1 else
      if c = M.indentS ∨ c = M.indentT then -1 else 0)

/-- No class of the expression contains a mark. -/
def RE.NoMark : RE → Prop
  | .eps => True
  | .chr p => ∀ c, isMark M c = true → p c = false
  | .many p => ∀ c, isMark M c = true → p c = false
  | .seq a b => RE.NoMark a ∧ RE.NoMark b
  | .alt a b => RE.NoMark a ∧ RE.NoMark b
  | .bound _ => True

variable {M}

theorem net_cons_of_not_mark {c : Char} {s : Str} (h : isMark M c = false) : net M (c :: s) = net M s := by
  simp only [isMark, Bool.or_eq_false_iff, beq_eq_false_iff_ne] at h
  simp [net, h.1.1.1, h.1.1.2, h.1.2, h.2]

theorem net_append_of_not_mark {u : Str} (h : ∀ c ∈ u, isMark M c = false) (s : Str) :
    net M (u ++ s) = net M s := by
  induction u with
  | nil => rfl
  | cons c u ih =>
    rw [List.cons_append, net_cons_of_not_mark (h c List.mem_cons_self),
      ih (fun d hd => h d (List.mem_cons_of_mem _ hd))]

theorem manyRests_net {p : Char → Bool} (hp : ∀ c, isMark M c = true → p c = false) :
    ∀ (s r : Str), r ∈ manyRests p s → net M r = net M s
  | [], r, h => by
    simp only [manyRests, List.mem_singleton] at h
    rw [h]
  | c :: s, r, h => by
    by_cases hc : p c = true
    · simp only [manyRests, hc, if_true, List.mem_append, List.mem_singleton] at h
      rcases h with h | h
      · rw [manyRests_net hp s r h, net_cons_of_not_mark]
        cases hm : isMark M c with
        | false => rfl
        | true => rw [hp c hm] at hc; cases hc
      · rw [h]
    · simp only [manyRests, hc, Bool.false_eq_true, if_false, List.mem_singleton] at h
      rw [h]

theorem RE.rests_net : ∀ (r : RE), RE.NoMark M r → ∀ s x : Str, x ∈ r.rests s → net M x = net M s
  | .eps, _, s, x, hx => by
    simp only [RE.rests, List.mem_singleton] at hx
    rw [hx]
  | .chr p, _, [], x, hx => by cases hx
  | .chr p, h, c :: s, x, hx => by
    by_cases hc : p c = true
    · simp only [RE.rests, hc, if_true, List.mem_singleton] at hx
      rw [hx, net_cons_of_not_mark]
      cases hm : isMark M c with
      | false => rfl
      | true => rw [h c hm] at hc; cases hc
    · simp [RE.rests, hc] at hx
  | .many p, h, s, x, hx => manyRests_net h s x hx
  | .seq a b, h, s, x, hx => by
    simp only [RE.rests, List.mem_flatMap] at hx
    obtain ⟨y, hy, hx⟩ := hx
    rw [RE.rests_net b h.2 y x hx, RE.rests_net a h.1 s y hy]
  | .alt a b, h, s, x, hx => by
    simp only [RE.rests, List.mem_append] at hx
    rcases hx with hx | hx
    · exact RE.rests_net a h.1 s x hx
    · exact RE.rests_net b h.2 s x hx
  | .bound w, _, s, x, hx => by
    simp only [RE.rests] at hx
    split at hx
    · cases hx
    · simp only [List.mem_singleton] at hx
      rw [hx]

theorem RE.match?_net {r : RE} (h : RE.NoMark M r) {s x : Str} (hx : r.match? s = some x) :
    net M x = net M s :=
  RE.rests_net r h s x (List.mem_of_mem_head? (by rw [RE.match?] at hx; rw [hx]; exact rfl))

end

/-! ### Texts -/

/-- Conditions on a text before `'\n' :: t`. They are conditions on all of its ends. -/
structure Joinable (M : Marks) (t a : Str) : Prop where
  last : ∀ c, a.getLast? = some c → isSpace c = false
  net : ∀ r, r <:+ a → 0 ≤ net M r
  raw : ∀ q v, q = '\'' ∨ q = '"' → 'r' :: q :: v <:+ a →
    ∃ w x, v = w ++ q :: x ∧ ∀ c ∈ w, c ≠ q ∧ isMark M c = false
  marks : ∀ c v, c :: v <:+ a → isMark M c = true →
    v = [] ∨ ∃ d v', v = d :: v' ∧ (isMark M d = true ∨ d = '\n')
  notIn : s!!"not" <:+ a → ¬ s!!"in" <+: t.dropWhile isSpace
  isNot : s!!"is" <:+ a → ¬ s!!"not" <+: t.dropWhile isSpace

theorem Joinable.suffix {M : Marks} {t a r : Str} (h : Joinable M t a) (hr : r <:+ a) : Joinable M t r where
  last c hc := by
    obtain ⟨u, rfl⟩ := hr
    apply h.last c
    rw [List.getLast?_append, hc]
    rfl
  net x hx := h.net x (hx.trans hr)
  raw q v hq hv := h.raw q v hq (hv.trans hr)
  marks c v hv hc := h.marks c v (hv.trans hr) hc
  notIn hx := h.notIn (hx.trans hr)
  isNot hx := h.isNot (hx.trans hr)

/-- Conditions on the text after it. -/
structure Ending (t : Str) : Prop where
  notElse : ¬ s!!"else" <+: t.dropWhile (· == '\n')
  notElif : ¬ s!!"elif" <+: t.dropWhile (· == '\n')

/-- What an expression needs of the text before the newline: nothing, a character, an open group. -/
inductive Need where
  | nothing
  | char
  | group
  deriving DecidableEq

/-- The text has it. -/
def Need.Met (M : Marks) : Need → Str → Prop
  | .nothing, _ => True
  | .char, a => a ≠ []
  | .group, a => 1 ≤ Verif.net M a

/-- What remains of it after a match. -/
def Need.next : Need → Need
  | .group => .group
  | _ => .nothing

/-- The one follows from the other. -/
def Need.le : Need → Need → Bool
  | .nothing, _ => true
  | .char, .nothing => false
  | .char, _ => true
  | .group, .group => true
  | .group, _ => false

theorem Need.Met.mono {M : Marks} {m l : Need} {a : Str} (hle : m.le l = true) (h : l.Met M a) :
    m.Met M a := by
  cases m <;> cases l <;> first | trivial | cases hle | exact h | skip
  intro e
  subst e
  simp [Need.Met, Verif.net] at h

theorem Need.Met.next {M : Marks} {l : Need} {a r : Str} (h : l.Met M a) (hn : net M r = net M a) :
    l.next.Met M r := by
  cases l <;> first | trivial | skip
  simp only [Need.next, Need.Met] at h ⊢
  rw [hn]
  exact h

/-- The needs of the rules. Marks and paths are matched only as parts of other rules. -/
def needOf : NT → Option Need
  | .document | .indent_s | .indent_t | .dedent_s | .dedent_t | .path_import => none
  | .nl | .margin | .margin_out | .block => some .char
  | .core_blocks | .core_verbat | .core_normal | .core_markup => some .group
  | _ => some .nothing

section
variable (M : Marks) (t : Str)

/-- A literal without newlines and marks. -/
def LitOk (s : Str) : Prop := ∀ c ∈ s, c ≠ '\n' ∧ isMark M c = false

/-- A regular expression that what follows does not influence. -/
def RxOk (l : Need) (r : RE) : Prop := ∀ a, Joinable M t a → l.Met M a →
  r.match? (a ++ '\n' :: t) = (r.match? a).map (· ++ '\n' :: t) ∧ ∀ x, r.match? a = some x → net M x = net M a

mutual
/-- An expression that what follows does not influence, if `l` is met. -/
inductive Steady : Need → Peg NT → Prop
  | lit {l : Need} {s : Str} : LitOk M s → Steady l (.lit s)
  | rx {l : Need} {r : RE} : RxOk M t l r → Steady l (.rx r)
  | ref {l m : Need} {n : NT} : needOf n = some m → m.le l = true → Steady l (.ref n)
  | seq {l : Need} {ps : List (Peg NT)} : SteadySeq l ps → Steady l (.seq ps)
  | spaces {l m : Need} {n : NT} : needOf n = some m →
      Steady l (.seq [.ref .indent_s, .ref n, .ref .dedent_s])
  | tabs {l m : Need} {n : NT} : needOf n = some m →
      Steady l (.seq [.ref .indent_t, .ref n, .ref .dedent_t])
  | clause {l : Need} {w : Str} {ps : List (Peg NT)} : w = s!!"else" ∨ w = s!!"elif" →
      SteadySeq .nothing ps → Steady l (.seq (.ref .nl :: .lit w :: ps))
  | alt {l : Need} {ps : List (Peg NT)} : SteadyAll l ps → Steady l (.alt ps)
  | opt {l : Need} {p : Peg NT} : Steady l p → Steady l (.opt p)
  | star {l : Need} {p : Peg NT} : Steady l p → Steady l.next p → Steady l (.star p)
  | plus {l : Need} {p : Peg NT} : Steady l p → Steady l.next p → Steady l (.plus p)
  | not {l : Need} {p : Peg NT} : Steady l p → Steady l (.not p)
/-- The members of a sequence. -/
inductive SteadySeq : Need → List (Peg NT) → Prop
  | nil {l : Need} : SteadySeq l []
  | cons {l : Need} {p : Peg NT} {ps : List (Peg NT)} : Steady l p → SteadySeq l.next ps →
      SteadySeq l (p :: ps)
  | path {l : Need} {ps : List (Peg NT)} : SteadySeq l.next ps →
      SteadySeq l (.ref .path_import :: .ref .space :: ps)
/-- The members of an alternative. -/
inductive SteadyAll : Need → List (Peg NT) → Prop
  | nil {l : Need} : SteadyAll l []
  | cons {l : Need} {p : Peg NT} {ps : List (Peg NT)} : Steady l p → SteadyAll l ps → SteadyAll l (p :: ps)
end

end
end Verif
