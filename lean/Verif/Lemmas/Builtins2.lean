import Verif.Lemmas.Builtins

/-! Helper lemmas for `inline`, `cycle`, `changes`, `crop` and `join_path`. -/

namespace Verif
open Py Spec

/-! ### inline -/

theorem inline_eq (t : Str) :
    inline t = t.flatMap (fun c => if c = '\n' then s!!"&#10;" else [c]) := replace_single _ _ _

/-- A prefix of the form `#10;`, `10;`, ... of an inlined text is a prefix of the text. -/
theorem prefix_inline {p : Str} (hp : '&' ∉ p) (hn : '\n' ∉ p) {t : Str} (h : p <+: inline t) :
    p <+: t := by
  induction p generalizing t with
  | nil => exact List.nil_prefix
  | cons d p ih =>
    simp only [List.mem_cons, not_or] at hp hn
    cases t with
    | nil => rw [inline_eq] at h; simp at h
    | cons c t =>
      have e : inline (c :: t) = (if c = '\n' then s!!"&#10;" else [c]) ++ inline t := by
        rw [inline_eq, inline_eq]; rfl
      rw [e] at h
      by_cases hc : c = '\n'
      · rw [if_pos hc] at h
        have : d = '&' := by
          have := List.cons_prefix_cons.1 h
          exact this.1
        exact absurd this.symm hp.1
      · rw [if_neg hc] at h
        obtain ⟨h1, h2⟩ := List.cons_prefix_cons.1 h
        subst h1
        exact List.cons_prefix_cons.2 ⟨rfl, ih hp.2 hn.2 h2⟩

theorem replace_inline (t : Str) (h : ¬ (s!!"&#10;") <:+: t) :
    replaceAux (s!!"&#10;") ['\n'] 0 (inline t) = t := by
  induction t with
  | nil => rfl
  | cons c t ih =>
    have ih' := ih (fun hi => h (List.IsInfix.trans hi (List.suffix_cons c t).isInfix))
    have e : inline (c :: t) = (if c = '\n' then s!!"&#10;" else [c]) ++ inline t := by
      rw [inline_eq, inline_eq]; rfl
    rw [e]
    by_cases hc : c = '\n'
    · rw [if_pos hc]
      simp only [List.cons_append, List.nil_append, replaceAux]
      rw [if_pos (by simp [List.isPrefixOf])]
      simp only [List.length_cons, List.length_nil, replaceAux_skip _ _ _ (0 + 1 + 1 + 1 + 1 + 1 - 1)]
      simp [ih', hc]
    · rw [if_neg hc]
      simp only [List.cons_append, List.nil_append, replaceAux]
      rw [if_neg, ih']
      intro hp
      rw [List.isPrefixOf_iff_prefix] at hp
      obtain ⟨h1, h2⟩ := List.cons_prefix_cons.1 hp
      have h3 := prefix_inline (by decide) (by decide) h2
      exact h (by rw [← h1]; exact (List.cons_prefix_cons.2 ⟨rfl, h3⟩).isInfix)

/-! ### cycle -/

/-- State of a cyclic iterator after `i` elements: what comes next is determined by `i` modulo the
length. -/
def CycleAt {α} (s : List α) (i : Nat) (it : CycleIter α) : Prop :=
  it.saved = s ∧ ∃ k, k ≤ s.length ∧ it.rest = s.drop k ∧ k % s.length = i % s.length

theorem cycleAt_start {α} (s : List α) : CycleAt s 0 { saved := s, rest := s } :=
  ⟨rfl, 0, by simp, by simp, rfl⟩

theorem cycleAt_next {α} {s : List α} {i : Nat} {it : CycleIter α} (hs : s ≠ [])
    (h : CycleAt s i it) :
    ∃ x it', it.next = some (x, it') ∧ s[i % s.length]? = some x ∧ CycleAt s (i + 1) it' := by
  obtain ⟨h1, k, hk, h2, h3⟩ := h
  have hpos : 0 < s.length := List.length_pos_iff.2 hs
  by_cases hlt : k < s.length
  · have hd : s.drop k = s[k] :: s.drop (k + 1) := List.drop_eq_getElem_cons hlt
    refine ⟨s[k], { it with rest := s.drop (k + 1) }, ?_, ?_, h1, k + 1, hlt, rfl, ?_⟩
    · unfold CycleIter.next; rw [h2, hd]
    · rw [← h3, Nat.mod_eq_of_lt hlt]; simp [hlt]
    · rw [Nat.add_mod, h3, ← Nat.add_mod]
  · have hke : k = s.length := by omega
    subst hke
    obtain ⟨x, xs, e⟩ := List.exists_cons_of_ne_nil hs
    refine ⟨x, { it with rest := xs }, ?_, ?_, h1, 1, hpos, ?_, ?_⟩
    · unfold CycleIter.next
      rw [h2, h1]
      simp [e]
    · rw [← h3, Nat.mod_self, e]; rfl
    · rw [e]; rfl
    · rw [Nat.add_mod i 1, ← h3, Nat.mod_self]
      simp

theorem cycleAt_next_nil {α} {i : Nat} {it : CycleIter α} (h : CycleAt [] i it) :
    it.next = none := by
  obtain ⟨h1, k, hk, h2, h3⟩ := h
  unfold CycleIter.next
  simp at h2
  rw [h2, h1]

/-- Tuple number `i`. -/
def tupleAt {α} (seqs : List (List α)) (i : Nat) : List (Option α) :=
  seqs.map (fun s => s[i % s.length]?)

theorem zipNext_spec {α} (seqs : List (List α)) (hne : ∀ s ∈ seqs, s ≠ []) (i : Nat)
    (its : List (CycleIter α)) (h : List.Forall₂ (fun s it => CycleAt s i it) seqs its) :
    ∃ xs its', zipNext its = some (xs, its') ∧ xs.map some = tupleAt seqs i ∧
      List.Forall₂ (fun s it => CycleAt s (i + 1) it) seqs its' := by
  induction h with
  | nil => exact ⟨[], [], rfl, rfl, .nil⟩
  | @cons s it seqs its h hs ih =>
    obtain ⟨xs, its', h1, h2, h3⟩ := ih (fun s hs => hne s (by simp [hs]))
    obtain ⟨x, it', g1, g2, g3⟩ := cycleAt_next (hne s (by simp)) h
    refine ⟨x :: xs, it' :: its', ?_, ?_, .cons g3 h3⟩
    · simp [zipNext, g1, h1]
    · simp only [List.map_cons, tupleAt, g2]
      rw [h2]; rfl

theorem isliceZip_spec {α} (seqs : List (List α)) (hne : ∀ s ∈ seqs, s ≠ []) (n i : Nat)
    (its : List (CycleIter α)) (h : List.Forall₂ (fun s it => CycleAt s i it) seqs its) :
    (isliceZip n its).map (fun xs => xs.map some) =
      (List.range n).map (fun j => tupleAt seqs (i + j)) := by
  induction n generalizing i its with
  | zero => rfl
  | succ n ih =>
    obtain ⟨xs, its', h1, h2, h3⟩ := zipNext_spec seqs hne i its h
    simp only [isliceZip, h1, List.map_cons]
    rw [ih (i + 1) its' h3, List.range_succ_eq_map, List.map_cons, h2, List.map_map]
    congr 1
    apply List.map_congr_left
    intro j _
    simp only [Function.comp]
    congr 1
    omega

theorem forall₂_start {α} (seqs : List (List α)) :
    List.Forall₂ (fun s it => CycleAt s 0 it) seqs
      (seqs.map (fun s => { saved := s, rest := s })) := by
  induction seqs with
  | nil => exact .nil
  | cons s seqs ih => exact .cons (cycleAt_start s) ih

theorem foldl_max_ge (l : List Nat) (a : Nat) : a ≤ l.foldl max a ∧ ∀ x ∈ l, x ≤ l.foldl max a := by
  induction l generalizing a with
  | nil => simp
  | cons y l ih =>
    obtain ⟨h1, h2⟩ := ih (max a y)
    simp only [List.foldl_cons]
    refine ⟨by omega, ?_⟩
    intro x hx
    rcases List.mem_cons.1 hx with e | hx
    · subst e; omega
    · exact h2 x hx

theorem foldl_max_mem (l : List Nat) (a : Nat) : l.foldl max a = a ∨ l.foldl max a ∈ l := by
  induction l generalizing a with
  | nil => simp
  | cons y l ih =>
    simp only [List.foldl_cons]
    rcases ih (max a y) with h | h
    · rcases Nat.le_total a y with h' | h'
      · right; rw [h, Nat.max_eq_right h']; simp
      · left; rw [h, Nat.max_eq_left h']
    · right; simp [h]

/-! ### changes -/

theorem changesLoop_some {α} (ne : α → α → Bool) (first : Bool) (l : List α) (p : α) :
    (changesLoop ne first (some p) l).length = l.length ∧
    ∀ k (h : k < l.length), (changesLoop ne first (some p) l)[k]? =
      some (l[k], ne l[k] ((p :: l)[k]'(by simp; omega))) := by
  induction l generalizing p with
  | nil => simp [changesLoop]
  | cons v l ih =>
    obtain ⟨h1, h2⟩ := ih v
    refine ⟨by simp [changesLoop, h1], ?_⟩
    intro k hk
    cases k with
    | zero => simp [changesLoop]
    | succ k =>
      simp only [changesLoop, List.getElem?_cons_succ]
      rw [h2 k (by simpa using hk)]
      simp

/-! ### crop -/

theorem rsplitHead_spec (sep : Char) (s : Str) :
    (sep ∉ s ∧ rsplitHead sep s = s) ∨
    (∃ b, s = rsplitHead sep s ++ sep :: b ∧ sep ∉ b) := by
  unfold rsplitHead
  by_cases h : sep ∈ s
  · right
    rw [if_pos (by simpa using h)]
    have hne : s.reverse.dropWhile (· != sep) ≠ [] := by
      intro e
      have := dropWhile_eq_nil_iff'.1 e sep (by simpa using h)
      simp at this
    obtain ⟨c, u, e⟩ := List.exists_cons_of_ne_nil hne
    have hc : c = sep := by
      have := List.head?_dropWhile_not (· != sep) s.reverse
      rw [e] at this
      simpa using this
    subst hc
    refine ⟨(s.reverse.takeWhile (· != c)).reverse, ?_, ?_⟩
    · have h1 := List.takeWhile_append_dropWhile (p := (· != c)) (l := s.reverse)
      rw [e] at h1
      rw [e]
      have h2 := congrArg List.reverse h1
      rw [List.reverse_reverse] at h2
      conv_lhs => rw [← h2]
      simp
    · intro hm
      rw [List.mem_reverse] at hm
      have := mem_takeWhile_imp' hm
      simp at this
  · left
    exact ⟨h, by rw [if_neg (by simpa using h)]⟩

/-! ### join_path -/

theorem split_rsplitHead (sep : Char) (s : Str) (h : sep ∈ s) :
    split sep (rsplitHead sep s) = (split sep s).dropLast ∧ (split sep s).length ≥ 2 := by
  rcases rsplitHead_spec sep s with ⟨h1, _⟩ | ⟨b, h1, h2⟩
  · exact absurd h h1
  · have hb := split_of_not_mem h2
    have e : split sep s = split sep (rsplitHead sep s) ++ [b] := by
      conv_lhs => rw [h1]
      rw [split_append]
      have : split sep (sep :: b) = [[], b] := by rw [split_cons_sep, hb]
      rw [this]
      simp only [List.headD_cons, List.append_nil, List.tail_cons]
      have hne := split_ne_nil sep (rsplitHead sep s)
      rw [List.getLastD_eq_getLast?, List.getLast?_eq_some_getLast hne]
      simp only [Option.getD_some]
      conv_rhs => rw [← List.dropLast_concat_getLast hne]
      simp
    constructor
    · rw [e]; simp
    · rw [e]
      have hne := split_ne_nil sep (rsplitHead sep s)
      have := List.length_pos_iff.2 hne
      simp; omega

theorem joinLoop_spec (sep : Char) (path base : Str) :
    (leadingDots path < (split sep base).length →
      joinLoop sep base path = .ok
        (join [sep] ((split sep base).take ((split sep base).length - leadingDots path)),
          path.drop (leadingDots path))) ∧
    ((split sep base).length ≤ leadingDots path → joinLoop sep base path = .error .importError) := by
  induction path generalizing base with
  | nil =>
    have := List.length_pos_iff.2 (split_ne_nil sep base)
    simp [joinLoop, leadingDots, join_split, split_ne_nil]
  | cons c path ih =>
    by_cases hc : c = '.'
    · subst hc
      have hd : leadingDots ('.' :: path) = leadingDots path + 1 := rfl
      rw [hd]
      simp only [joinLoop, if_true]
      by_cases hs : sep ∈ base
      · rw [if_pos (by simpa [contains] using hs)]
        obtain ⟨h1, h2⟩ := split_rsplitHead sep base hs
        obtain ⟨i1, i2⟩ := ih (rsplitHead sep base)
        rw [h1, List.length_dropLast] at i1 i2
        constructor
        · intro h
          have e : min ((split sep base).length - 1 - leadingDots path) ((split sep base).length - 1) =
              (split sep base).length - (leadingDots path + 1) := by omega
          rw [i1 (by omega), List.dropLast_eq_take, List.take_take, e, List.drop_succ_cons]
        · intro h; exact i2 (by omega)
      · rw [if_neg (by simpa [contains] using hs)]
        have h1 := split_of_not_mem hs
        rw [h1]
        simp
    · have hd : leadingDots (c :: path) = 0 := by
        unfold leadingDots
        split
        · rename_i h; simp only [List.cons.injEq] at h; exact absurd h.1 hc
        · rfl
      have := List.length_pos_iff.2 (split_ne_nil sep base)
      rw [hd]
      simp [joinLoop, hc, join_split, split_ne_nil]

theorem replace_dots (sep : Char) (p : Str) :
    replace p ['.'] [sep] = join [sep] (split '.' p) := by
  rw [replace_single]
  induction p with
  | nil => rfl
  | cons c p ih =>
    rw [List.flatMap_cons, ih]
    by_cases hc : c = '.'
    · subst hc
      rw [if_pos rfl, split_cons_sep, join_cons _ _ (split_ne_nil _ _)]
      rfl
    · rw [if_neg hc, split_cons_ne hc, join_head_cons]
      have hne := split_ne_nil '.' p
      cases hs : split '.' p with
      | nil => exact absurd hs hne
      | cons l ls => rfl

end Verif
