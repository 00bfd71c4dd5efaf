import Verif.Model.Nifty
import Verif.Spec.Nifty

/-! C103 (`split_where`) and C104 (other sequence utilities). -/

namespace Verif
open Nifty

section
variable {α : Type}

theorem ranges_append (n : Nat) (ss : List (List α)) (t : List α) :
    Spec.ranges n (ss ++ [t]) =
      Spec.ranges n ss ++ [(n + ss.flatten.length, n + ss.flatten.length + t.length)] := by
  induction ss generalizing n with
  | nil => simp [Spec.ranges]
  | cons s ss ih =>
    simp only [List.cons_append, Spec.ranges, ih, List.flatten_cons, List.length_append, Nat.add_assoc]

/-- What the loop of `split_where` keeps true after it has read the non-empty prefix of length `n`. -/
structure CutInv (seq : List α) (cut : Nat → α → α → Bool) (n : Nat) (c : Cutting α) : Prop where
  pos : 0 < n
  le : n ≤ seq.length
  prev : c.prev = seq[n - 1]?
  stop : c.stop = (n : Int) - 1
  start : c.start < n
  parts : (c.result.map Prod.fst).flatten = seq.take c.start
  full : ∀ s ∈ c.result.map Prod.fst, s ≠ []
  rng : c.result.map Prod.snd = Spec.ranges 0 (c.result.map Prod.fst)
  cuts : (c.result.map (fun t => t.2.1)) ++ [c.start] =
    0 :: (List.range' 1 (n - 1)).filter (Spec.isCut seq cut)

theorem cutInv_step {seq : List α} {cut : Nat → α → α → Bool} {n : Nat} {c : Cutting α} {x : α}
    (h : CutInv seq cut n c) (hx : seq[n]? = some x) :
    CutInv seq cut (n + 1) (cutStep seq cut n x c) := by
  have hn : n < seq.length := by
    rcases Nat.lt_or_ge n seq.length with h' | h'
    · exact h'
    · rw [List.getElem?_eq_none h'] at hx; cases hx
  have hp := h.pos
  have hs := h.start
  obtain ⟨p, hpv⟩ : ∃ p, seq[n - 1]? = some p := ⟨seq[n - 1], List.getElem?_eq_getElem (by omega)⟩
  have hch : cutHere cut n c.prev x = Spec.isCut seq cut n := by
    rw [h.prev, Spec.isCut, hpv, hx]
    show (decide (1 ≤ n) && cut n p x) = cut n p x
    rw [decide_eq_true (by omega), Bool.true_and]
  have hr : List.range' 1 (n + 1 - 1) = List.range' 1 (n - 1) ++ [n] := by
    have e : n + 1 - 1 = (n - 1) + 1 := by omega
    rw [e, List.range'_concat]
    have e' : 1 + 1 * (n - 1) = n := by omega
    rw [e']
  have hsl : (pySlice seq c.start n).length = n - c.start := by
    rw [pySlice, List.length_drop, List.length_take]; omega
  have htk : (seq.take c.start).length = c.start := by rw [List.length_take]; omega
  unfold cutStep
  split
  · rename_i hc
    rw [hch] at hc
    refine ⟨by omega, by omega, ?_, ?_, by simp, ?_, ?_, ?_, ?_⟩
    · rw [Nat.add_sub_cancel]; exact hx.symm
    · simp
    · simp only [List.map_append, List.flatten_append, h.parts]
      simp only [List.map_cons, List.map_nil, List.flatten_cons, List.flatten_nil, List.append_nil, pySlice]
      have e : seq.take c.start = (seq.take n).take c.start := by
        rw [List.take_take, Nat.min_eq_left (by omega)]
      rw [e, List.take_append_drop]
    · intro s hm
      simp only [List.map_append, List.map_cons, List.map_nil, List.mem_append, List.mem_singleton] at hm
      rcases hm with hm | hm
      · exact h.full s hm
      · subst hm
        intro e
        rw [e] at hsl
        simp at hsl
        omega
    · simp only [List.map_append, List.map_cons, List.map_nil]
      rw [ranges_append, ← h.rng, h.parts, htk, hsl]
      simp; omega
    · simp only [List.map_append, List.map_cons, List.map_nil]
      rw [h.cuts, hr, List.filter_append]
      simp [hc]
  · rename_i hc
    rw [hch] at hc
    refine ⟨by omega, by omega, ?_, ?_, by simp; omega, h.parts, h.full, h.rng, ?_⟩
    · rw [Nat.add_sub_cancel]; exact hx.symm
    · simp
    · show _ ++ [c.start] = _
      rw [h.cuts, hr, List.filter_append]
      simp [hc]

theorem cutInv_loop {seq : List α} {cut : Nat → α → α → Bool} {xs : List α} {n : Nat} {c : Cutting α}
    (h : CutInv seq cut n c) (hx : seq.drop n = xs) :
    CutInv seq cut seq.length (cutLoop seq cut n xs c) := by
  induction xs generalizing n c with
  | nil =>
    have hl := congrArg List.length hx
    rw [List.length_drop] at hl
    have hle := h.le
    have : n = seq.length := by simp at hl; omega
    rw [← this]; exact h
  | cons x xs ih =>
    have hg : seq[n]? = some x := by
      have := congrArg (·[0]?) hx
      simpa using this
    have hd : seq.drop (n + 1) = xs := by
      rw [← List.drop_drop, hx]; rfl
    exact ih (cutInv_step h hg) hd

theorem cutInv_final (seq : List α) (cut : Nat → α → α → Bool) (h : seq ≠ []) :
    CutInv seq cut seq.length (cutLoop seq cut 0 seq ⟨[], none, 0, -1⟩) := by
  cases seq with
  | nil => exact absurd rfl h
  | cons x xs =>
    refine cutInv_loop (n := 1) ?_ rfl
    refine ⟨by omega, by simp, ?_, ?_, ?_, ?_, ?_, ?_, ?_⟩ <;> simp [cutStep, cutHere, Spec.ranges]

theorem splitRanges_eq (seq : List α) (cut : Nat → α → α → Bool) (h : seq ≠ []) :
    splitRanges seq cut =
      (cutLoop seq cut 0 seq ⟨[], none, 0, -1⟩).result ++
        [(seq.drop (cutLoop seq cut 0 seq ⟨[], none, 0, -1⟩).start,
          (cutLoop seq cut 0 seq ⟨[], none, 0, -1⟩).start, seq.length - 1)] := by
  have hi := cutInv_final seq cut h
  have hp := hi.pos
  rw [splitRanges, if_neg (by rw [hi.stop]; omega)]
  have e : (cutLoop seq cut 0 seq ⟨[], none, 0, -1⟩).stop.toNat = seq.length - 1 := by
    rw [hi.stop]; omega
  rw [e]

/-- C103 (pieces): the pieces that `split_where` returns, put together, are the sequence, and none of
them is empty; nothing is returned exactly for the empty sequence. -/
theorem C103_pieces (seq : List α) (cut : Nat → α → α → Bool) :
    (splitWhere seq cut).flatten = seq ∧ (∀ s ∈ splitWhere seq cut, s ≠ []) ∧
      (splitWhere seq cut = [] ↔ seq = []) := by
  by_cases h : seq = []
  · subst h
    simp [splitWhere, splitRanges, cutLoop]
  · have hi := cutInv_final seq cut h
    have hs := hi.start
    rw [splitWhere, splitRanges_eq seq cut h]
    refine ⟨?_, ?_, ?_⟩
    · simp only [List.map_append, List.flatten_append, hi.parts]
      simp
    · intro s hm
      simp only [List.map_append, List.map_cons, List.map_nil, List.mem_append, List.mem_singleton] at hm
      rcases hm with hm | hm
      · exact hi.full s hm
      · subst hm
        intro e
        have := congrArg List.length e
        rw [List.length_drop] at this
        simp at this
        omega
    · simp [h]

/-- The beginnings of the pieces and the numbers given to `key_func`. -/
theorem split_ranges_aux (seq : List α) (cut : Nat → α → α → Bool) (h : seq ≠ []) :
    (Spec.ranges 0 (splitWhere seq cut)) =
        ((splitRanges seq cut).dropLast.map Prod.snd) ++
          [((cutLoop seq cut 0 seq ⟨[], none, 0, -1⟩).start, seq.length)] ∧
      (splitRanges seq cut).map (fun t => t.2.1) = 0 :: Spec.cuts seq cut := by
  have hi := cutInv_final seq cut h
  have hs := hi.start
  constructor
  · rw [splitWhere, splitRanges_eq seq cut h, List.map_append, List.map_cons, List.map_nil, ranges_append,
      hi.parts, List.dropLast_concat, hi.rng]
    have : (seq.take (cutLoop seq cut 0 seq ⟨[], none, 0, -1⟩).start).length =
        (cutLoop seq cut 0 seq ⟨[], none, 0, -1⟩).start := by rw [List.length_take]; omega
    rw [this, List.length_drop]
    congr 3
    · omega
    · omega
  · rw [splitRanges_eq seq cut h, List.map_append, List.map_cons, List.map_nil, hi.cuts, Spec.cuts]

/-- C103 (cuts): the sequence is cut exactly at the positions between neighbours `a`, `b` where
`cut_test(pos, a, b)` holds: these are, after 0, the beginnings of the pieces. -/
theorem C103_cuts (seq : List α) (cut : Nat → α → α → Bool) (h : seq ≠ []) :
    (Spec.ranges 0 (splitWhere seq cut)).map Prod.fst = 0 :: Spec.cuts seq cut := by
  have ha := split_ranges_aux seq cut h
  rw [← ha.2, ha.1, List.map_append, List.map_map]
  have hsr := splitRanges_eq seq cut h
  rw [hsr, List.dropLast_concat, List.map_append]
  rfl

/-- C103 (ranges): `key_func` is given the range of every piece but the last one. -/
theorem C103_ranges_partial (seq : List α) (cut : Nat → α → α → Bool) :
    (splitRanges seq cut).dropLast.map Prod.snd = (Spec.ranges 0 (splitWhere seq cut)).dropLast ∧
      (splitRanges seq cut).map (fun t => t.2.1) =
        (Spec.ranges 0 (splitWhere seq cut)).map Prod.fst := by
  by_cases h : seq = []
  · subst h; simp [splitWhere, splitRanges, cutLoop, Spec.ranges]
  · have ha := split_ranges_aux seq cut h
    refine ⟨?_, ?_⟩
    · rw [ha.1, List.dropLast_concat]
    · rw [ha.2, C103_cuts seq cut h]

/-- C103 (the last range is wrong): for every non-empty sequence the `stop` given to `key_func` for
the last piece is one less than the end of that piece, against the documentation. -/
theorem C103_last_range (seq : List α) (cut : Nat → α → α → Bool) (h : seq ≠ []) :
    (splitRanges seq cut).getLast?.map (fun t => t.2.2 + 1) = some seq.length ∧
      (Spec.ranges 0 (splitWhere seq cut)).getLast?.map Prod.snd = some seq.length := by
  have hl : 0 < seq.length := List.length_pos_iff.2 h
  refine ⟨?_, ?_⟩
  · rw [splitRanges_eq seq cut h, List.getLast?_concat]
    simp; omega
  · rw [(split_ranges_aux seq cut h).1, List.getLast?_concat]
    rfl

/-- C103 is false in general: the ranges are not those that the documentation promises. -/
theorem C103_not_in_general :
    ¬ ∀ (seq : List Nat) (cut : Nat → Nat → Nat → Bool),
      (splitRanges seq cut).map Prod.snd = Spec.ranges 0 (splitWhere seq cut) := by
  intro h
  exact absurd (h [7] (fun _ _ _ => false)) (by decide)

/-- The example of the documentation. -/
example : splitWhere [1, 5, 8, 3, 5, 8, 2, 0, 4] (fun _ x y => decide (x > y)) =
      [[1, 5, 8], [3, 5, 8], [2], [0, 4]] ∧
    Spec.cuts [1, 5, 8, 3, 5, 8, 2, 0, 4] (fun _ x y => decide (x > y)) = [3, 6, 7] ∧
    (splitRanges [1, 5, 8, 3, 5, 8, 2, 0, 4] (fun _ x y => decide (x > y))).map Prod.snd =
      [(0, 3), (3, 6), (6, 7), (7, 8)] := by decide

end

/-! ## C104 -/

section
variable {α : Type}

theorem batchLoop_spec {size : Nat} (hs : 1 ≤ size) (xs cur : List α) (hc : cur.length ≤ size) :
    (batchLoop size xs cur).flatten = cur ++ xs ∧
      (∀ b ∈ (batchLoop size xs cur).dropLast, b.length = size) ∧
      (∀ b ∈ batchLoop size xs cur, b ≠ [] ∧ b.length ≤ size) ∧
      (cur ++ xs ≠ [] → batchLoop size xs cur ≠ []) := by
  induction xs generalizing cur with
  | nil =>
    unfold batchLoop
    split
    · rename_i e; subst e; simp
    · rename_i e; simp [e, hc]
  | cons x xs ih =>
    unfold batchLoop
    split
    · rename_i hle
      obtain ⟨h1, h2, h3, h4⟩ := ih [x] (by simpa using hs)
      have hne := h4 (by simp)
      refine ⟨by simp [h1], ?_, ?_, by simp⟩
      · intro b hb
        rw [List.dropLast_cons_of_ne_nil hne] at hb
        rcases List.mem_cons.1 hb with rfl | hb
        · omega
        · exact h2 b hb
      · intro b hb
        rcases List.mem_cons.1 hb with rfl | hb
        · refine ⟨?_, hc⟩
          intro e; subst e; simp at hle; omega
        · exact h3 b hb
    · rename_i hle
      obtain ⟨h1, h2, h3, h4⟩ := ih (cur ++ [x]) (by simp; omega)
      refine ⟨by simp [h1], h2, h3, fun _ => h4 (by simp)⟩

/-- C104 (batches): for a positive size the batches, put together, are the sequence; each but the
last has exactly that size, and the last one is neither empty nor longer. -/
theorem C104_batch (seq : List α) (size : Nat) :
    (batch seq size = none ↔ size = 0) ∧
      ∀ bs, batch seq size = some bs →
        chain bs = seq ∧ (∀ b ∈ bs.dropLast, b.length = size) ∧ ∀ b ∈ bs, b ≠ [] ∧ b.length ≤ size := by
  have hch : ∀ l : List (List α), chain l = l.flatten := by
    intro l
    induction l with
    | nil => rfl
    | cons a l ih => rw [chain, ih, List.flatten_cons]
  unfold batch
  split
  · rename_i hs
    refine ⟨⟨by simp, by omega⟩, ?_⟩
    intro bs h
    cases h
    obtain ⟨h1, h2, h3, _⟩ := batchLoop_spec hs seq [] (by simp)
    exact ⟨by rw [hch, h1]; rfl, h2, h3⟩
  · rename_i hs
    exact ⟨⟨fun _ => by omega, fun _ => rfl⟩, by simp⟩

theorem partitionLoop_spec {S : Type} (test : S → α → Bool × S) (xs : List α) (s : S) (pos neg : List α) :
    partitionLoop test xs s pos neg =
      ((pos ++ Spec.chosen true xs (Spec.answers test xs s).1,
        neg ++ Spec.chosen false xs (Spec.answers test xs s).1), (Spec.answers test xs s).2) := by
  induction xs generalizing s pos neg with
  | nil => simp [partitionLoop, Spec.chosen, Spec.answers]
  | cons x xs ih =>
    unfold partitionLoop
    split
    · rename_i h
      rw [ih]
      simp [Spec.chosen, Spec.answers, h]
    · rename_i h
      rw [ih]
      have h' : (test s x).1 = false := by cases e : (test s x).1 <;> simp_all
      simp [Spec.chosen, Spec.answers, h']

/-- C104 (partition): `test` is asked once for every element, in order; the elements with a positive
answer and those with a negative one are returned, both in their order. -/
theorem C104_partition {S : Type} (test : S → α → Bool × S) (seq : List α) (s : S) :
    partition test seq s =
      ((Spec.chosen true seq (Spec.answers test seq s).1,
        Spec.chosen false seq (Spec.answers test seq s).1), (Spec.answers test seq s).2) := by
  rw [partition, partitionLoop_spec]; rfl

theorem flats_append (xs ys : List (Item α)) : Item.flats (xs ++ ys) = Item.flats xs ++ Item.flats ys := by
  induction xs with
  | nil => rfl
  | cons x xs ih => rw [List.cons_append, Item.flats, Item.flats, ih, List.append_assoc]

theorem flats_atoms (xs : List α) : Item.flats (xs.map Item.atom) = xs := by
  induction xs with
  | nil => rfl
  | cons x xs ih => rw [List.map_cons, Item.flats, Item.flat, ih]; rfl

/-- C104 (flatten): grouping does not matter. Whatever stands between them, an inner iterable and its
elements in the same place flatten to the same list; atoms alone are returned as they are, and
several arguments count as one list of them. -/
theorem C104_flatten (before inner after args : List (Item α)) (atoms : List α) :
    flatten [.seq (before ++ .seq inner :: after)] = flatten [.seq (before ++ inner ++ after)] ∧
      flatten [.seq (atoms.map Item.atom)] = some atoms ∧
      (args.length ≠ 1 → flatten args = flatten [.seq args]) := by
  refine ⟨?_, ?_, ?_⟩
  · rw [flatten, flatten, flats_append, flats_append, flats_append, Item.flats, Item.flat, List.append_assoc]
  · rw [flatten, flats_atoms]
  · intro h
    match args, h with
    | [], _ => rfl
    | [_], h => exact absurd rfl h
    | x :: _ :: _, _ => cases x <;> rfl

/-- C104 (flatten, as the parser uses it, parsing.py:340): a list of lists of nodes becomes the
concatenation of the lists. -/
theorem C104_flatten_lists (xss : List (List α)) :
    flatten [.seq (xss.map fun xs => .seq (xs.map Item.atom))] = some xss.flatten := by
  rw [flatten]
  congr 1
  induction xss with
  | nil => rfl
  | cons xs xss ih => rw [List.map_cons, Item.flats, Item.flat, flats_atoms, ih, List.flatten_cons]

variable [DecidableEq α]

theorem againLoop_mem (seen xs : List α) (x : α) :
    x ∈ againLoop seen xs ↔ (x ∈ seen ∧ x ∈ xs) ∨ 2 ≤ xs.count x := by
  induction xs generalizing seen with
  | nil => simp [againLoop]
  | cons y xs ih =>
    unfold againLoop
    by_cases hxy : x = y
    · subst hxy
      split
      · rename_i h
        simp [h]
      · rename_i h
        rw [ih]
        simp only [List.mem_cons, true_or, true_and, List.count_cons_self, h, false_and, false_or]
        rw [← List.count_pos_iff]
        omega
    · have hc : (y :: xs).count x = xs.count x := by
        rw [List.count_cons_of_ne (fun e => hxy e.symm)]
      rw [hc]
      split
      · rename_i h
        simp [ih, hxy]
      · simp [ih, hxy]

theorem foldl_setAdd (xs s : List α) (hs : s.Nodup) :
    (xs.foldl setAdd s).Nodup ∧ ∀ x, x ∈ xs.foldl setAdd s ↔ x ∈ s ∨ x ∈ xs := by
  induction xs generalizing s with
  | nil => simp [hs]
  | cons y xs ih =>
    have hn : (setAdd s y).Nodup := by
      unfold setAdd
      split
      · exact hs
      · rename_i h
        rw [List.nodup_append]
        refine ⟨hs, by simp, ?_⟩
        intro a ha b hb e
        simp only [List.mem_singleton] at hb
        subst hb; subst e; exact h ha
    have hm : ∀ x, x ∈ setAdd s y ↔ x ∈ s ∨ x = y := by
      intro x
      unfold setAdd
      split
      · rename_i h
        constructor
        · exact .inl
        · rintro (h' | rfl)
          · exact h'
          · exact h
      · simp
    refine ⟨(ih _ hn).1, fun x => ?_⟩
    rw [List.foldl_cons, (ih _ hn).2, hm, List.mem_cons, or_assoc]

/-- C104 (duplicates): exactly the elements that occur at least twice, each once; `duplicate` returns
one of them, and `None` exactly if there are none. -/
theorem C104_duplicates (seq : List α) :
    (∀ x, x ∈ duplicates seq ↔ 2 ≤ seq.count x) ∧ (duplicates seq).Nodup ∧
      (duplicate seq = none ↔ seq.Nodup) ∧ ∀ x, duplicate seq = some x → 2 ≤ seq.count x := by
  have h := foldl_setAdd (againLoop [] seq) [] List.nodup_nil
  have hm : ∀ x, x ∈ duplicates seq ↔ 2 ≤ seq.count x := by
    intro x
    rw [duplicates, h.2, againLoop_mem]; simp
  have hd : duplicate seq = (duplicates seq).head? := by
    unfold duplicate
    split
    · rename_i e; rw [e]; rfl
    · rfl
  refine ⟨hm, h.1, ?_, ?_⟩
  · rw [hd, List.head?_eq_none_iff, List.nodup_iff_count]
    constructor
    · intro e x
      have := hm x
      rw [e] at this
      simp at this
      omega
    · intro hc
      rcases e : duplicates seq with _ | ⟨x, l⟩
      · rfl
      · have := (hm x).1 (by rw [e]; simp)
        have := hc x
        omega
  · intro x hx
    rw [hd] at hx
    exact (hm x).1 (List.mem_of_head? hx)

example : batch [1, 2, 3, 4, 5] 2 = some [[1, 2], [3, 4], [5]] ∧ duplicates [1, 2, 1, 3, 2, 1] = [1, 2] ∧
    partition (fun (n : Nat) (x : Nat) => (decide (x % 2 = n % 2), n + 1)) [0, 1, 3, 3] 0 =
      (([0, 1, 3], [3]), 4) := by decide

example : flatten [.seq [.atom 1, .seq [.atom 2, .seq []]], .atom 3, .seq [.seq [.atom 4]]] =
    some [1, 2, 3, 4] := by simp [flatten, Item.flats, Item.flat]

end
end Verif
