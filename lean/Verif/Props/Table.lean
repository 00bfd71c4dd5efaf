import Verif.Lemmas.Table

/-! Properties C32, C33: the symbol table. -/

namespace Verif
open Spec

variable {K V : Type} [DecidableEq K]

/-- C32. After any history of pushes, pops and resets, `get(name)` gives the value of the latest
still-present push of the name (`None` if there is none) and never fails internally. -/
theorem C32_get (ops : List (TableOp K V)) (k : K) :
    (tableRun MultiDict.empty ops).1.get k = .ok (latest (specRun [] ops).1 k) :=
  rep_get (rep_run rep_empty ops).1 k

/-- C32. A name is present iff some push of it is still present. -/
theorem C32_contains (ops : List (TableOp K V)) (k : K) :
    (tableRun MultiDict.empty ops).1.contains k = true ↔ ∃ v, (k, v) ∈ (specRun [] ops).1 := by
  rw [rep_contains (rep_run rep_empty ops).1 k]
  simp

/-- C32. Operations report what the list of bindings tells: `pop` returns the latest push, `pop` of
an empty table raises `IndexError`, `reset` above the top is rejected; there is no other failure. -/
theorem C32_results (ops : List (TableOp K V)) :
    (tableRun (MultiDict.empty : MultiDict K V) ops).2 = (specRun [] ops).2 :=
  (rep_run rep_empty ops).2

/-- C32. `keys()` lists each present name once, ordered by the earliest still-present push. -/
theorem C32_keys (ops : List (TableOp K V)) :
    FirstOccurrences ((specRun [] ops).1.map Prod.fst)
      (tableRun (MultiDict.empty : MultiDict K V) ops).1.keys := by
  obtain ⟨h1, _, _, h4⟩ := (rep_run (rep_empty (K := K) (V := V)) ops).1
  unfold MultiDict.keys
  rw [h4, ← h1, binds_fst]
  exact firsts_spec _

/-- C33. Taking the position, performing any operations that stay above it, and resetting to the
position restores the table exactly, hence every lookup and also the order of the names. -/
theorem C33_reset_restores (before after : List (TableOp K V))
    (h : StaysAbove (specRun [] before).1.length (specRun [] before).1 after) :
    let md := (tableRun (MultiDict.empty : MultiDict K V) before).1
    (tableRun md after).1.reset md.position = .ok md := by
  intro md
  have h1 := (rep_run (rep_empty (K := K) (V := V)) before).1
  have h2 := (rep_run h1 after).1
  have hpos : md.position = (specRun [] before).1.length := by
    rw [← h1.1]; simp [md, MultiDict.position, binds]
  obtain ⟨h3, h4⟩ := specRun_take (Nat.le_refl _) h
  rw [List.take_length] at h3
  rcases rep_reset h2 md.position with ⟨h5, _⟩ | ⟨md', _, h6, h7⟩
  · rw [hpos] at h5; omega
  · rw [h6]
    rw [hpos, h3] at h7
    rw [rep_unique h7 h1]

/-- Operations that only push, and a pair push-pop, stay above any position. -/
example : StaysAbove 1 [("a", 1)]
    [.push "b" 2, .push "a" 3, .pop, .push "c" 4, .reset 2, .pop, .push "a" 5] := by
  simp [StaysAbove, specStep]

example : (tableRun MultiDict.empty
    [.push "a" 123, .push "b" 321, .push "a" 9, .pop, .push "b" 456, .push "b" 654, .reset 2]).1.get "b" =
    .ok (some 321) := by rfl
example : (tableRun MultiDict.empty
    [.push "a" 123, .push "b" 321, .push "a" 9]).1.get "a" = .ok (some 9) := by rfl

/-! ### C69: batch operations -/

/-- C69. `pushall` adds the symbols in the given order, on the top of the others. -/
theorem C69_pushall (ops : List (TableOp K V)) (ps : List (K × V)) (k : K) :
    ((tableRun MultiDict.empty ops).1.pushall ps).get k =
      .ok ((latest ps k).or (latest (specRun [] ops).1 k)) := by
  rw [rep_get (rep_pushall (rep_run rep_empty ops).1 ps), latest_append]

/-- C69. `pushnew` keeps the value of each name that was present and gives each other listed name
its first value in the list. -/
theorem C69_pushnew (ops : List (TableOp K V)) (ps : List (K × V)) (k : K) :
    ((tableRun MultiDict.empty ops).1.pushnew ps).get k =
      .ok ((latest (specRun [] ops).1 k).or (ps.find? (fun p => p.1 = k) |>.map Prod.snd)) := by
  obtain ⟨new, h1, h2⟩ := rep_pushnew (rep_run rep_empty ops).1 ps
  have : ∀ ps : List (K × V), Dict.get? ps k = (ps.find? (fun p => p.1 = k) |>.map Prod.snd) := by
    intro ps
    induction ps with
    | nil => rfl
    | cons p ps ih =>
      simp only [Dict.get?, List.find?_cons]
      by_cases e : p.1 = k <;> simp [e, ih]
  rw [rep_get h1, h2, this]

/-- C69. After `pushnew`, a reset to the position before it restores the table. -/
theorem C69_pushnew_reset (ops : List (TableOp K V)) (ps : List (K × V)) :
    let md := (tableRun (MultiDict.empty : MultiDict K V) ops).1
    (md.pushnew ps).reset md.position = .ok md := by
  intro md
  have h := (rep_run (rep_empty (K := K) (V := V)) ops).1
  obtain ⟨new, h1, _⟩ := rep_pushnew h ps
  have hpos : md.position = (specRun [] ops).1.length := by
    rw [← h.1]; simp [md, MultiDict.position, binds]
  rcases rep_reset h1 md.position with ⟨h5, _⟩ | ⟨md', _, h6, h7⟩
  · rw [List.length_append, hpos] at h5; omega
  · rw [h6]
    rw [hpos, List.take_left] at h7
    rw [rep_unique h7 h]

/-- C69. `asdict(n)` gives the latest value of each name pushed at position `n` or above, and lists
the names in the order of their first such pushes. -/
theorem C69_asdict (ops : List (TableOp K V)) (n : Nat) :
    let d := (tableRun (MultiDict.empty : MultiDict K V) ops).1.asdict n
    let above := (specRun [] ops).1.drop n
    (∀ k, d.get? k = latest above k) ∧ FirstOccurrences (above.map Prod.fst) d.keys := by
  intro d above
  have h := (rep_run (rep_empty (K := K) (V := V)) ops).1
  have e : d = Dict.update [] above := by
    show Dict.update [] _ = _
    rw [List.map_drop]
    show Dict.update [] ((binds (tableRun MultiDict.empty ops).1.stack).drop n) = _
    rw [h.1]
  have := keys_update above
  rw [← e] at this
  exact ⟨this.2, by rw [this.1]; exact firsts_spec _⟩

/-- C69. The idiom at the end of a branch of a control block (`asdict`, `reset`, `pushnew`): names
that were known before keep their previous values, new ones have the values they had in the branch. -/
theorem C69_branch (before after : List (TableOp K V))
    (h : StaysAbove (specRun [] before).1.length (specRun [] before).1 after) :
    let md := (tableRun (MultiDict.empty : MultiDict K V) before).1
    let md' := (tableRun md after).1
    ∃ md'', md'.reset md.position = .ok md'' ∧
      ∀ k, (md''.pushnew (md'.asdict md.position)).get k =
        .ok ((latest (specRun [] before).1 k).or
          (latest (specRun (specRun [] before).1 after).1 k)) := by
  intro md md'
  refine ⟨md, C33_reset_restores before after h, fun k => ?_⟩
  have h1 := (rep_run (rep_empty (K := K) (V := V)) before).1
  have h2 := (rep_run h1 after).1
  have hpos : md.position = (specRun [] before).1.length := by
    rw [← h1.1]; simp [md, MultiDict.position, binds]
  obtain ⟨h3, h4⟩ := specRun_take (Nat.le_refl _) h
  rw [List.take_length] at h3
  obtain ⟨new, h5, h6⟩ := rep_pushnew h1 (md'.asdict md.position)
  rw [rep_get h5, h6]
  congr 1
  have e : md'.asdict md.position =
      Dict.update [] ((specRun (specRun [] before).1 after).1.drop md.position) := by
    rw [← h2.1]
    simp only [MultiDict.asdict, binds, List.map_drop]
    rfl
  rw [e, (keys_update _).2]
  have e2 : latest (specRun (specRun [] before).1 after).1 k =
      (latest ((specRun (specRun [] before).1 after).1.drop md.position) k).or
        (latest (specRun [] before).1 k) := by
    conv_lhs => rw [← List.take_append_drop (specRun [] before).1.length
      (specRun (specRun [] before).1 after).1, h3, latest_append, ← hpos]
  rw [e2]
  cases latest (specRun [] before).1 k <;> simp

example : ((tableRun MultiDict.empty [.push "a" 1, .push "b" 2]).1.pushnew
    [("a", 10), ("c", 30), ("c", 31)]).get "c" = .ok (some 30) := by rfl
example : ((tableRun MultiDict.empty [.push "a" 1, .push "b" 2]).1.pushall
    [("a", 10), ("c", 30), ("c", 31)]).get "c" = .ok (some 31) := by rfl
example : ((tableRun MultiDict.empty [.push "a" 1, .push "b" 2, .push "a" 3, .push "b" 5]).1.asdict 1) =
    [("b", 5), ("a", 3)] := by rfl

end Verif
