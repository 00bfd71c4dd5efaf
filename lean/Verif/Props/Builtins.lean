import Verif.Lemmas.Builtins2

/-! Properties C21-C28: built-in functions and relative paths. -/

namespace Verif
open Py Spec

/-- C21. `merge(text)` is the sequence of maximal non-whitespace runs joined by single spaces.
(`Words` determines the runs uniquely: `words_unique`.) -/
theorem C21_merge_words (text : Str) :
    ∃ ws, Words text ws ∧ (∀ ws', Words text ws' → ws' = ws) ∧ merge text = join [' '] ws := by
  obtain ⟨ws, h⟩ := words_exist text
  exact ⟨ws, h, fun ws' h' => words_unique h' h, merge_words h⟩

/-- C21. `merge` is idempotent. -/
theorem C21_merge_idempotent (text : Str) : merge (merge text) = merge text := by
  obtain ⟨ws, h⟩ := words_exist text
  rw [merge_words h]
  exact merge_words (words_join (words_mem h)).1

example : merge (s!!" a\n\t b  c\n") = s!!"a b c" := by decide

/-- C22. The lines of `unique(text, strip)` are the distinct input lines, each once, ordered by
first occurrence; the input lines are those of `str.splitlines`, by default stripped and without the
empty ones. -/
theorem C22_unique (text : Str) (doStrip : Bool) :
    let input := if doStrip then ((splitlines text).map strip).filter (fun l => l ≠ [])
      else splitlines text
    (input = [] → unique text doStrip = []) ∧
    (input ≠ [] → FirstOccurrences input (lines (unique text doStrip))) := by
  intro input
  have hi : input = uniqueInput text doStrip := by
    unfold input uniqueInput
    cases doStrip
    · rfl
    · simp only [if_true]
      congr 1
      funext l
      cases l <;> rfl
  rw [hi]
  have hu := uniqueList_spec (uniqueInput text doStrip) []
  constructor
  · intro e
    unfold unique
    rw [e]; rfl
  · intro e
    have hne : uniqueList [] (uniqueInput text doStrip) ≠ [] := by
      obtain ⟨x, xs, hx⟩ := List.exists_cons_of_ne_nil e
      intro h
      have := (hu.1 x).2 ⟨by rw [hx]; simp, by simp⟩
      rw [h] at this; simp at this
    have hl : lines (unique text doStrip) = uniqueList [] (uniqueInput text doStrip) := by
      apply lines_unique _ _ hne _ rfl
      intro l hl
      exact uniqueInput_no_newline _ _ l ((hu.1 l).1 hl).1
    rw [hl]
    exact ⟨fun x => by rw [hu.1]; simp, hu.2.1, hu.2.2⟩

/-- C22. The input lines: `str.splitlines` ends lines at any of its ten characters, takes a carriage
return and a newline together, and makes no empty line after the last line end. -/
theorem C22_lines (text : Str) (ls : List Str) : splitlines text = ls ↔ SplitLines text ls := by
  refine ⟨fun h => ?_, splitlines_of⟩
  obtain ⟨ls', h'⟩ := splitLines_exists text
  rw [← h, splitlines_of h']
  exact h'

example : SplitLines (s!!"a\r\n\rb\n") [s!!"a", [], s!!"b"] := (C22_lines _ _).1 (by decide)

/-- C22. The specification determines the result: the list of first occurrences is unique. -/
theorem C22_spec_unique {α} [DecidableEq α] (l r r' : List α) (h : FirstOccurrences l r)
    (h' : FirstOccurrences l r') : r = r' := by
  obtain ⟨h1, h2, h3⟩ := h
  obtain ⟨g1, g2, g3⟩ := h'
  have hp : r.Perm r' := (List.perm_ext_iff_of_nodup h2 g2).2 (fun x => by rw [h1, g1])
  refine hp.eq_of_pairwise ?_ h3 g3
  intro a b _ _ h4 h5
  omega

example : unique (s!!" b\na\n\nb \r\nc\na") true = s!!"b\na\nc" := by decide
example : unique (s!!" b\na\n\nb\n b") false = s!!" b\na\n\nb" := by decide

/-- C23. A full `dedent` keeps exactly the non-blank lines, in order, each without its leading
whitespace and otherwise unchanged. They are separated by single newlines; a final newline is left
iff the text after the last newline is blank. -/
theorem C23_dedent (text : Str) :
    ∃ kept : List Str,
      List.Forall₂ Trimmed ((lines text).filter (fun l => NonBlank l)) kept ∧
      dedent text true = join ['\n'] kept ++
        (if kept = [] then [] else if NonBlank ((lines text).getLastD []) then [] else ['\n']) := by
  refine ⟨((lines text).filter (fun l => NonBlank l)).map lstrip, ?_, ?_⟩
  · have h : ∀ l ∈ (lines text).filter (fun l => decide (NonBlank l)), NonBlank l := by
      intro l hl; simpa using (List.mem_filter.1 hl).2
    generalize (lines text).filter (fun l => decide (NonBlank l)) = ls at h
    induction ls with
    | nil => exact .nil
    | cons l ls ih =>
      exact .cons (trimmed_lstrip (h l (by simp))) (ih (fun m hm => h m (by simp [hm])))
  · have hm : ∀ l ∈ lines text, '\n' ∉ l := fun l hl => not_mem_lines hl
    have hne := lines_ne_nil text
    have e : text = join ['\n'] (lines text) := (join_split '\n' text).symm
    have hd : dedent text true = dedentScan true text := rfl
    rw [hd]
    conv_lhs => rw [e]
    generalize lines text = ls at hm hne ⊢
    cases ls with
    | nil => exact absurd rfl hne
    | cons l ls => exact (dedentScan_join l ls hm).1

example : dedent (s!!"  a b \n\t\n   c\n d\n ") true = s!!"a b \nc\nd\n" := by decide

/-- C24. `inline(text)` has no newline. -/
theorem C24_no_newline (text : Str) : '\n' ∉ inline text := by
  rw [inline_eq]
  intro h
  obtain ⟨c, _, hc⟩ := List.mem_flatMap.1 h
  split at hc
  · revert hc; decide
  · rename_i hn
    simp only [List.mem_singleton] at hc
    exact hn hc.symm

/-- C24. Replacing `&#10;` by newline restores a text that did not contain `&#10;`. -/
theorem C24_restore (text : Str) (h : ¬ (s!!"&#10;") <:+: text) :
    replace (inline text) (s!!"&#10;") ['\n'] = text := replace_inline text h

/-- C24. Indenting an inlined text does not change it. -/
theorem C24_indent_invariant (text ind : Str) : addIndent (inline text) ind = inline text := by
  have hn := C24_no_newline text
  unfold addIndent
  split
  · rfl
  · have := addIndentScan_join ind (inline text) hn [] (by simp)
    simpa [join] using this

example : inline (s!!"a\n b") = s!!"a&#10; b" := by decide
example : ¬ (s!!"&#10;") <:+: s!!"&#1\n&#10" := by decide

/-- C25. The `i`-th tuple of `cycle(s_1, ..., s_n)` is `(s_1[i % len(s_1)], ..., s_n[i % len(s_n)])`;
the number of tuples is the length of the first sequence (`stop='first'`), the length of the longest
one (`stop='longest'`), or unlimited. -/
theorem C25_cycle {α} (stop : Stop) (seqs : List (List α)) (hne : seqs ≠ [])
    (hs : ∀ s ∈ seqs, s ≠ []) (n : Nat) :
    (∀ i xs, (cycleTake stop seqs n)[i]? = some xs →
      List.Forall₂ (fun s x => s[i % s.length]? = some x) seqs xs) ∧
    ∃ total : Option Nat,
      (cycleTake stop seqs n).length = total.elim n (fun t => min t n) ∧
      (stop = .first → total = (seqs.head?).map List.length) ∧
      (stop = .longest → ∃ t, total = some t ∧ (∃ s ∈ seqs, s.length = t) ∧
        ∀ s ∈ seqs, s.length ≤ t) ∧
      (stop = .never → total = none) := by
  have key : ∀ m, (isliceZip m (seqs.map (fun s => CycleIter.mk s s))).map (fun xs => xs.map some) =
      (List.range m).map (fun j => tupleAt seqs j) := by
    intro m
    have := isliceZip_spec seqs hs m 0 _ (forall₂_start seqs)
    simpa using this
  constructor
  · intro i xs h
    unfold cycleTake at h
    rw [if_neg hne] at h
    have hk := congrArg (fun l => l[i]?) (key (isliceLimit n (cycleLength stop seqs)))
    generalize isliceLimit n (cycleLength stop seqs) = m at h hk
    simp only [List.getElem?_map, h, Option.map_some] at hk
    have hlt : i < m := by
      by_contra hge
      have : (List.range m)[i]? = none := List.getElem?_eq_none (by simpa using hge)
      rw [this] at hk
      simp at hk
    rw [List.getElem?_range hlt] at hk
    simp only [Option.map_some, Option.some.injEq, tupleAt] at hk
    clear h key hne hs
    induction seqs generalizing xs with
    | nil =>
      have : xs = [] := by simpa using hk
      subst this; exact .nil
    | cons s seqs ih =>
      cases xs with
      | nil => simp at hk
      | cons x xs =>
        simp only [List.map_cons, List.cons.injEq] at hk
        exact .cons hk.1.symm (ih xs hk.2)
  · refine ⟨cycleLength stop seqs, ?_, ?_, ?_, ?_⟩
    · unfold cycleTake
      rw [if_neg hne]
      have hk := congrArg List.length (key (isliceLimit n (cycleLength stop seqs)))
      rw [List.length_map, List.length_map, List.length_range] at hk
      rw [hk]
      cases cycleLength stop seqs <;> rfl
    · rintro rfl
      obtain ⟨s, ss, e⟩ := List.exists_cons_of_ne_nil hne
      simp [cycleLength, e]
    · rintro rfl
      refine ⟨_, rfl, ?_, ?_⟩
      · rcases foldl_max_mem (seqs.map List.length) 0 with h | h
        · obtain ⟨s, ss, e⟩ := List.exists_cons_of_ne_nil hne
          have h1 := (foldl_max_ge (seqs.map List.length) 0).2 s.length (by rw [e]; simp)
          have h2 : 0 < s.length := List.length_pos_iff.2 (hs s (by rw [e]; simp))
          omega
        · obtain ⟨s, h1, h2⟩ := List.mem_map.1 h
          exact ⟨s, h1, h2⟩
      · intro s h
        exact (foldl_max_ge (seqs.map List.length) 0).2 s.length (List.mem_map.2 ⟨s, h, rfl⟩)
    · rintro rfl; rfl

/-- C25. Without sequences nothing is produced. -/
theorem C25_no_sequences {α} (stop : Stop) (n : Nat) : cycleTake stop ([] : List (List α)) n = [] :=
  rfl

/-- C25, the proviso "no sequence is empty" is needed: an empty second sequence empties the result. -/
theorem C25_empty_sequence_witness : cycleTake .first [[1, 2], []] 5 = [] := by decide

example : cycleTake .longest [[1, 2, 3], [10, 20]] 9 = [[1, 10], [2, 20], [3, 10]] := by decide
example : cycleTake .never [[1, 2, 3], [10, 20]] 4 = [[1, 10], [2, 20], [3, 10], [1, 20]] := by decide

/-- C26. `changes(seq, first)` yields the elements of `seq` in order, the first one with the flag
`first`, each other one with the result of `value != previous`. -/
theorem C26_changes {α} (ne : α → α → Bool) (seq : List α) (first : Bool) :
    (changes ne seq first).map Prod.fst = seq ∧
    (∀ x, (changes ne seq first).head? = some x → x.2 = first) ∧
    (∀ k (h : k + 1 < seq.length), ((changes ne seq first)[k + 1]?).map Prod.snd =
      some (ne seq[k + 1] seq[k])) := by
  cases seq with
  | nil => simp [changes, changesLoop]
  | cons v l =>
    obtain ⟨h1, h2⟩ := changesLoop_some ne first l v
    refine ⟨?_, ?_, ?_⟩
    · apply List.ext_getElem?
      intro k
      cases k with
      | zero => simp [changes, changesLoop]
      | succ k =>
        simp only [changes, changesLoop, List.map_cons, List.getElem?_cons_succ, List.getElem?_map]
        by_cases hk : k < l.length
        · rw [h2 k hk]; simp
        · rw [List.getElem?_eq_none (by omega), List.getElem?_eq_none (by omega)]; rfl
    · intro x hx
      simp only [changes, changesLoop, List.head?_cons, Option.some.injEq] at hx
      rw [← hx]
    · intro k hk
      simp only [changes, changesLoop, List.getElem?_cons_succ]
      rw [h2 k (by simpa using hk)]
      simp

example : changes (fun a b : Nat => a != b) [1, 1, 2, 1] true =
    [(1, true), (1, false), (2, true), (1, true)] := by decide

/-- C27. `crop` under its documented preconditions: `s` itself if not longer than `length + leeway`;
otherwise a prefix `p` of `s` followed by `end`, not longer than `length`, where `p` is either cut
exactly at `length - len(end)`, or (without `killwords`) just before the last space within that
limit, dropping at most `maxdrop` characters. -/
theorem C27_crop (s : Str) (length : Int) (end_ : Str) (killwords : Bool) (maxdrop leeway : Int)
    (h1 : (end_.length : Int) ≤ length) (h2 : 0 ≤ leeway) :
    ((s.length : Int) ≤ length + leeway → crop s length end_ killwords maxdrop leeway = some s) ∧
    (length + leeway < s.length →
      ∃ p, crop s length end_ killwords maxdrop leeway = some (p ++ end_) ∧ p <+: s ∧
        ((p ++ end_).length : Int) ≤ length ∧
        (((p.length : Int) = length - end_.length ∧
            (killwords = true ∨ ' ' ∉ p ∨
              ∃ a b, p = a ++ ' ' :: b ∧ ' ' ∉ b ∧ maxdrop < (b.length : Int) + 1)) ∨
          (killwords = false ∧ (length - end_.length) - p.length ≤ maxdrop ∧
            ∃ b rest, s = p ++ ' ' :: b ++ rest ∧ ' ' ∉ b ∧
              ((p ++ ' ' :: b).length : Int) = length - end_.length))) := by
  constructor
  · intro h
    unfold crop
    rw [if_neg (by omega), if_neg (by omega), if_pos h]
  · intro h
    unfold crop
    rw [if_neg (by omega), if_neg (by omega), if_neg (by omega)]
    dsimp only
    generalize hm : (length - (end_.length : Int)).toNat = m
    have hm' : (m : Int) = length - end_.length := by omega
    have htl : (s.take m).length = m := by rw [List.length_take]; omega
    cases killwords with
    | true =>
      refine ⟨s.take m, by simp, List.take_prefix _ _, ?_, Or.inl ⟨by omega, Or.inl rfl⟩⟩
      rw [List.length_append, htl]; omega
    | false =>
      simp only [Bool.false_eq_true, if_false]
      rcases rsplitHead_spec ' ' (s.take m) with ⟨hn, he⟩ | ⟨b, he, hb⟩
      · rw [he]
        refine ⟨s.take m, by simp, List.take_prefix _ _, ?_, Or.inl ⟨by omega, Or.inr (Or.inl hn)⟩⟩
        rw [List.length_append, htl]; omega
      · have hlen : (rsplitHead ' ' (s.take m)).length + b.length + 1 = m := by
          have := congrArg List.length he
          rw [htl] at this
          simp at this; omega
        generalize hr : rsplitHead ' ' (s.take m) = r at he hlen ⊢
        by_cases hd : (r.length : Int) < m - maxdrop
        · rw [if_pos hd]
          refine ⟨s.take m, rfl, List.take_prefix _ _, ?_,
            Or.inl ⟨by omega, Or.inr (Or.inr ⟨r, b, he, hb, by omega⟩)⟩⟩
          rw [List.length_append, htl]; omega
        · rw [if_neg hd]
          have hs : s = r ++ ' ' :: b ++ s.drop m := by
            rw [← he, List.take_append_drop]
          refine ⟨r, rfl, ⟨' ' :: b ++ s.drop m, by rw [← List.append_assoc]; exact hs.symm⟩, ?_,
            Or.inr ⟨trivial, by omega, b, s.drop m, hs, hb, ?_⟩⟩
          · rw [List.length_append]; omega
          · rw [← he, htl, hm']

/-- C27. Outside the preconditions `crop` fails with an assertion. -/
theorem C27_preconditions (s : Str) (length : Int) (end_ : Str) (killwords : Bool)
    (maxdrop leeway : Int) :
    crop s length end_ killwords maxdrop leeway = none ↔
      length < end_.length ∨ leeway < 0 := by
  by_cases h1 : length < end_.length
  · simp [crop, h1]
  · by_cases h2 : leeway < 0
    · unfold crop
      rw [if_neg (by omega), if_pos (by omega)]
      simp [h2]
    · simp only [h1, h2, or_self, iff_false]
      unfold crop
      rw [if_neg (by omega), if_neg (by omega)]
      split
      · simp
      · dsimp only; split <;> simp

example : crop (s!!"hello brave new world") 14 (s!!"...") false 10 0 = some (s!!"hello...") := by
  decide
example : crop (s!!"hello brave new world") 14 (s!!"...") false 4 0 = some (s!!"hello brave...") := by
  decide

/-- C28. A relative path with `k` leading dots joined to a base path with components `comps` gives
the base without its last `k - 1` components, followed by the components of the path (and the
extension); it raises `ImportError` iff fewer than `k` components are available. A trailing separator
of the base does not matter. -/
theorem C28_join_path (sep : Char) (comps : List Str) (hne : comps ≠ [])
    (hc : ∀ c ∈ comps, sep ∉ c) (trailing : Bool)
    (ht : trailing = false → (join [sep] comps).getLast? ≠ some sep)
    (k : Nat) (hk : 0 < k) (rest : Str) (hr : rest.head? ≠ some '.') (ext : Option Str) :
    joinPath (some (join [sep] comps ++ (if trailing then [sep] else [])))
        (List.replicate k '.' ++ rest) sep ext =
      if comps.length < k then .error .importError
      else .ok (some (join [sep] (comps.take (comps.length - (k - 1)) ++ split '.' rest) ++
        ext.getD [])) := by
  obtain ⟨j, rfl⟩ : ∃ j, k = j + 1 := ⟨k - 1, by omega⟩
  have hdots : leadingDots (List.replicate j '.' ++ rest) = j := by
    induction j with
    | zero =>
      cases rest with
      | nil => rfl
      | cons c rest =>
        simp only [List.replicate_zero, List.nil_append]
        unfold leadingDots
        split
        · rename_i h; simp only [List.cons.injEq] at h; simp [h.1] at hr
        · rfl
    | succ j ih =>
      have := ih (by omega)
      simp only [List.replicate_succ, List.cons_append]
      show leadingDots _ + 1 = _
      rw [this]
  have hdrop : (List.replicate j '.' ++ rest).drop j = rest := by
    rw [List.drop_append]; simp
  have hbase : (if (join [sep] comps ++ (if trailing then [sep] else [])).getLast? = some sep
      then (join [sep] comps ++ (if trailing then [sep] else [])).dropLast
      else join [sep] comps ++ (if trailing then [sep] else [])) = join [sep] comps := by
    cases trailing with
    | true => simp
    | false =>
      have := ht rfl
      simp [this]
  have hsplit := split_join hne hc
  obtain ⟨s1, s2⟩ := joinLoop_spec sep (List.replicate j '.' ++ rest) (join [sep] comps)
  rw [hsplit, hdots] at s1 s2
  unfold joinPath
  dsimp only
  rw [if_neg (by simp [List.replicate_succ]), hbase]
  have hd1 : (List.replicate (j + 1) '.' ++ rest).drop 1 = List.replicate j '.' ++ rest := by
    simp [List.replicate_succ]
  rw [hd1]
  by_cases hlt : j < comps.length
  · rw [s1 hlt, if_neg (by omega), hdrop]
    dsimp only
    rw [replace_dots]
    have hj : ∀ a b : List Str, a ≠ [] → b ≠ [] →
        join [sep] a ++ [sep] ++ join [sep] b = join [sep] (a ++ b) := by
      intro a b ha hb
      induction a with
      | nil => exact absurd rfl ha
      | cons x a ih =>
        by_cases e : a = []
        · subst e
          simp [join, join_cons [sep] x hb]
        · rw [join_cons [sep] x e, List.cons_append, join_cons [sep] x (by simp [e]), ← ih e]
          simp
    rw [hj _ _ (by
      intro e
      have := congrArg List.length e
      rw [List.length_take] at this
      simp at this; omega) (split_ne_nil _ _)]
    rfl
  · rw [s2 (by omega), if_pos (by omega)]

/-- C28. When the path does not itself contain the separator (or the separator is the dot), the
components of the result are exactly those. -/
theorem C28_components (sep : Char) (comps : List Str) (hne : comps ≠ [])
    (hc : ∀ c ∈ comps, sep ∉ c) (rest : Str) (hr : sep = '.' ∨ sep ∉ rest) :
    split sep (join [sep] (comps ++ split '.' rest)) = comps ++ split '.' rest := by
  apply split_join (by simp [hne])
  intro l hl
  rcases List.mem_append.1 hl with h | h
  · exact hc l h
  · rcases hr with e | hr
    · rw [e]; exact not_mem_split '.' rest l h
    · intro hm
      apply hr
      rw [← join_split '.' rest]
      generalize split '.' rest = ls at h
      induction ls with
      | nil => simp at h
      | cons m ms ih =>
        rcases List.mem_cons.1 h with e | h
        · subst e
          cases ms with
          | nil => exact hm
          | cons a b => simp [join, hm]
        · cases ms with
          | nil => simp at h
          | cons a b =>
            rw [join_cons_cons]
            simp only [List.mem_append]
            exact Or.inr (ih h)

/-- C28. No base, no result; a path without a leading dot is rejected. -/
theorem C28_other_cases (path : Str) (sep : Char) (ext : Option Str) :
    joinPath none path sep ext = .ok none ∧
    ∀ base, path.head? ≠ some '.' → joinPath (some base) path sep ext = .error .assertion := by
  refine ⟨rfl, ?_⟩
  intro base h
  unfold joinPath
  cases path with
  | nil => simp
  | cons c p =>
    have : c ≠ '.' := by simpa using h
    simp [this]

example : joinPath (some (s!!"pkg/sub/mod/")) (s!!"..x.y") '/' (some (s!!".hy")) =
    .ok (some (s!!"pkg/sub/x/y.hy")) := by decide
example : joinPath (some (s!!"pkg.sub")) (s!!"...x") '.' none = .error .importError := by decide

end Verif
