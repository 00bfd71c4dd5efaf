import Verif.Model.Nifty
import Verif.Spec.Nifty
import Verif.Lemmas.Dict
import Verif.Lemmas.PyModule

/-! C106 (context of a logger), C107 (dictionaries) and C108 (comparison operators). -/

namespace Verif
open Nifty

section
variable {K V : Type} [DecidableEq K]

/-- An operation on a logger, nifty/util.py:1367-1379; `none` is `KeyError`. -/
def Logger.op (l : Logger K V) : Spec.LogOp K V → Option (Logger K V)
  | .push key val => some (l.push key val)
  | .pop key => l.pop key
  | .set key val => some (l.setitem key val)

/-- A sequence of operations on a logger. -/
def Logger.ops : List (Spec.LogOp K V) → Logger K V → Option (Logger K V)
  | [], l => some l
  | o :: os, l => (Logger.op l o).bind (Logger.ops os)

/-- The logger `l` holds the stacks `m`: the current value of a key is the top of its stack. -/
structure LoggerRel (l : Logger K V) (m : K → List V) : Prop where
  nodup : (Dict.keys l.context).Nodup
  view : ∀ k, m k = (l.context.get? k).toList ++ l.stacks k
  inv : ∀ k, l.context.get? k = none → l.stacks k = []

theorem loggerRel_op {l : Logger K V} {m : K → List V} (h : LoggerRel l m) (o : Spec.LogOp K V) :
    match Logger.op l o, Spec.stackOp m o with
    | some l', some m' => LoggerRel l' m'
    | none, none => True
    | _, _ => False := by
  cases o with
  | push key val =>
    show LoggerRel (l.push key val) _
    unfold Logger.push
    split
    · rename_i old ho
      refine ⟨Dict.nodup_set h.nodup _ _, ?_, ?_⟩
      · intro k
        simp only [Dict.get?_set, Logger.setStack]
        by_cases e : k = key
        · subst e; simp [h.view, ho]
        · simp [e, Ne.symm e, h.view]
      · intro k hk
        simp only [Dict.get?_set, Logger.setStack] at hk ⊢
        by_cases e : k = key
        · subst e; simp at hk
        · rw [if_neg (fun e' => e e'.symm)] at hk
          rw [if_neg e]; exact h.inv k hk
    · rename_i ho
      refine ⟨Dict.nodup_set h.nodup _ _, ?_, ?_⟩
      · intro k
        simp only [Dict.get?_set]
        by_cases e : k = key
        · subst e; simp [h.view, ho]
        · simp [e, Ne.symm e, h.view]
      · intro k hk
        simp only [Dict.get?_set] at hk
        by_cases e : k = key
        · subst e; simp at hk
        · rw [if_neg (fun e' => e e'.symm)] at hk
          exact h.inv k hk
  | set key val =>
    show LoggerRel (l.setitem key val) _
    refine ⟨Dict.nodup_set h.nodup _ _, ?_, ?_⟩
    · intro k
      simp only [Logger.setitem, Dict.get?_set]
      by_cases e : k = key
      · subst e
        rw [if_pos rfl, if_pos rfl, h.view]
        cases hg : l.context.get? k with
        | none => simp [h.inv k hg]
        | some v => simp
      · simp [e, Ne.symm e, h.view]
    · intro k hk
      simp only [Logger.setitem, Dict.get?_set] at hk ⊢
      by_cases e : k = key
      · subst e; simp at hk
      · rw [if_neg (fun e' => e e'.symm)] at hk
        exact h.inv k hk
  | pop key =>
    show match l.pop key, Spec.stackOp m (.pop key) with
      | some l', some m' => LoggerRel l' m'
      | none, none => True
      | _, _ => False
    have hv := h.view key
    unfold Logger.pop
    cases hst : l.stacks key with
    | cons old rest =>
      cases hg : l.context.get? key with
      | none => rw [h.inv key hg] at hst; cases hst
      | some v =>
        rw [hst, hg] at hv
        simp only [Option.toList_some, List.singleton_append] at hv
        simp only [Spec.stackOp, hv]
        refine ⟨Dict.nodup_set h.nodup _ _, ?_, ?_⟩
        · intro k
          simp only [Dict.get?_set, Logger.setStack]
          by_cases e : k = key
          · subst e; simp
          · simp [e, Ne.symm e, h.view]
        · intro k hk
          simp only [Dict.get?_set, Logger.setStack] at hk ⊢
          by_cases e : k = key
          · subst e; simp at hk
          · rw [if_neg (fun e' => e e'.symm)] at hk
            rw [if_neg e]; exact h.inv k hk
    | nil =>
      rw [hst, List.append_nil] at hv
      simp only [Logger.delitem, Dict.del]
      cases hg : l.context.get? key with
      | none =>
        rw [hg] at hv
        simp only [Option.toList_none] at hv
        simp [Spec.stackOp, hv]
      | some v =>
        rw [hg] at hv
        simp only [Option.toList_some] at hv
        simp only [Spec.stackOp, hv, Option.map_some]
        refine ⟨?_, ?_, ?_⟩
        · show (Dict.keys (Dict.erase l.context key)).Nodup
          rw [Dict.keys_erase]; exact h.nodup.erase _
        · intro k
          show _ = (Dict.get? (Dict.erase l.context key) k).toList ++ l.stacks k
          rw [Dict.get?_erase _ h.nodup]
          by_cases e : k = key
          · subst e; simp [hst]
          · simp [e, Ne.symm e, h.view]
        · intro k hk
          change Dict.get? (Dict.erase l.context key) k = none at hk
          show l.stacks k = []
          rw [Dict.get?_erase _ h.nodup] at hk
          by_cases e : k = key
          · subst e; exact hst
          · rw [if_neg (fun e' => e e'.symm)] at hk
            exact h.inv k hk

theorem loggerRel_ops {l : Logger K V} {m : K → List V} (h : LoggerRel l m) (os : List (Spec.LogOp K V)) :
    match Logger.ops os l, Spec.stackOps os m with
    | some l', some m' => LoggerRel l' m'
    | none, none => True
    | _, _ => False := by
  induction os generalizing l m with
  | nil => exact h
  | cons o os ih =>
    have h1 := loggerRel_op h o
    rw [Logger.ops, Spec.stackOps]
    revert h1
    cases Logger.op l o with
    | none => cases Spec.stackOp m o with
      | none => intro _; trivial
      | some m' => exact fun h => h.elim
    | some l' => cases Spec.stackOp m o with
      | none => exact fun h => h.elim
      | some m' => exact fun h => ih h

/-- C106: after any sequence of `push`, `pop` and assignments the value of a key in the context of a
logger is the top of a stack of its own, which starts with the value given at creation, if any; the
key is absent when the stack is empty. `pop` fails exactly on an empty stack. -/
theorem C106_stacks (ctx : Dict K V) (hn : (Dict.keys ctx).Nodup) (os : List (Spec.LogOp K V)) :
    match Logger.ops os (Logger.new ctx), Spec.stackOps os (fun k => (ctx.get? k).toList) with
    | some l, some m => ∀ k, l.context.get? k = (m k).head?
    | none, none => True
    | _, _ => False := by
  have h : LoggerRel (Logger.new ctx) (fun k => (ctx.get? k).toList) :=
    ⟨hn, fun k => by simp [Logger.new], fun _ _ => rfl⟩
  have h1 := loggerRel_ops h os
  revert h1
  cases Logger.ops os (Logger.new ctx) with
  | none =>
    cases Spec.stackOps os (fun k => (ctx.get? k).toList) with
    | none => exact fun h => h
    | some m => exact fun h => h
  | some l =>
    cases Spec.stackOps os (fun k => (ctx.get? k).toList) with
    | none => exact fun h => h
    | some m =>
      intro h1 k
      show l.context.get? k = (m k).head?
      rw [h1.view]
      cases hg : l.context.get? k with
      | none => simp [h1.inv k hg]
      | some v => simp

/-- C106 (what `push` puts, `pop` takes): around any operations that leave the stacks as they were, a
`push` and a `pop` of the same key restore every value. -/
theorem C106_restore (ctx : Dict K V) (hn : (Dict.keys ctx).Nodup) (pre body : List (Spec.LogOp K V))
    (key : K) (val : V) (l : Logger K V) (hl : Logger.ops pre (Logger.new ctx) = some l)
    (hb : ∀ m : K → List V, Spec.stackOps body m = some m) :
    ∃ l', Logger.ops (.push key val :: body ++ [.pop key]) l = some l' ∧
      ∀ k, l'.context.get? k = l.context.get? k := by
  have h : LoggerRel (Logger.new ctx) (fun k => (ctx.get? k).toList) :=
    ⟨hn, fun k => by simp [Logger.new], fun _ _ => rfl⟩
  have h1 := loggerRel_ops h pre
  rw [hl] at h1
  cases hm : Spec.stackOps pre (fun k => (ctx.get? k).toList) with
  | none => rw [hm] at h1; exact h1.elim
  | some m =>
    rw [hm] at h1
    have h2 := loggerRel_ops h1 (.push key val :: body ++ [.pop key])
    have happ : ∀ (a b : List (Spec.LogOp K V)) (m : K → List V),
        Spec.stackOps (a ++ b) m = (Spec.stackOps a m).bind (Spec.stackOps b) := by
      intro a
      induction a with
      | nil => intro b m; rfl
      | cons o a ih =>
        intro b m
        rw [List.cons_append, Spec.stackOps, Spec.stackOps]
        cases Spec.stackOp m o with
        | none => rfl
        | some m' => exact ih b m'
    have e : Spec.stackOps (.push key val :: body ++ [.pop key]) m = some m := by
      rw [List.cons_append, Spec.stackOps]
      show Spec.stackOps (body ++ [.pop key]) (fun k => if k = key then val :: m k else m k) = some m
      rw [happ, hb]
      show (Spec.stackOp (fun k => if k = key then val :: m k else m k) (.pop key)).bind
        (Spec.stackOps []) = some m
      simp only [Spec.stackOp, if_true, Option.bind_some, Spec.stackOps]
      congr 1
      funext k
      by_cases hk : k = key
      · subst hk; simp
      · simp [hk]
    rw [e] at h2
    cases ho : Logger.ops (.push key val :: body ++ [.pop key]) l with
    | none => rw [ho] at h2; exact h2.elim
    | some l' =>
      rw [ho] at h2
      refine ⟨l', rfl, fun k => ?_⟩
      have hv := h1.view k
      have hv' := h2.view k
      rw [hv] at hv'
      cases hg : l.context.get? k with
      | none =>
        rw [hg, h1.inv k hg] at hv'
        cases hg' : l'.context.get? k with
        | none => rfl
        | some v => rw [hg'] at hv'; simp at hv'
      | some v =>
        rw [hg] at hv'
        cases hg' : l'.context.get? k with
        | none => rw [hg', h2.inv k hg'] at hv'; simp at hv'
        | some v' => rw [hg'] at hv'; simp at hv'; rw [hv'.1]

/-- `del log[key]` is no part of this discipline: after it a `push` and a `pop` of a key do not
restore its absence, if an earlier `push` is still open. -/
theorem C106_del_breaks :
    ∃ (l l' : Logger Nat Nat), ((Logger.new [(1, 10)]).push 1 20).delitem 1 = some l ∧
      l.context.get? 1 = none ∧ (l.push 1 30).pop 1 = some l' ∧ l'.context.get? 1 = some 10 :=
  ⟨_, _, rfl, rfl, rfl, rfl⟩

example : (Logger.ops [.push 1 5, .push 2 6, .set 1 7, .push 1 8, .pop 2, .pop 1] (Logger.new [(1, 4)])).map
    (fun l => (l.context, l.stacks 1)) = some ([(1, 7)], [4]) := by decide

example : (Logger.ops [.push 2 6, .pop 2, .pop 2] (Logger.new [(1, 4)])).isNone := by decide

/-! ## C107 -/

theorem pickKeys_get {d : Dict K V} {keys : List K} {k : K} {v : V} :
    (k, v) ∈ pickKeys d keys ↔ k ∈ keys ∧ d.get? k = some v := by
  induction keys with
  | nil => simp [pickKeys]
  | cons x keys ih =>
    unfold pickKeys
    split
    · rename_i v' hv
      rw [List.mem_cons, ih, List.mem_cons]
      constructor
      · rintro (e | ⟨h1, h2⟩)
        · cases e; exact ⟨.inl rfl, hv⟩
        · exact ⟨.inr h1, h2⟩
      · rintro ⟨rfl | h1, h2⟩
        · rw [hv] at h2; cases h2; exact .inl rfl
        · exact .inr ⟨h1, h2⟩
    · rename_i hv
      rw [ih, List.mem_cons]
      constructor
      · rintro ⟨h1, h2⟩; exact ⟨.inr h1, h2⟩
      · rintro ⟨rfl | h1, h2⟩
        · rw [hv] at h2; cases h2
        · exact ⟨h1, h2⟩

theorem get?_of_mem_nodup {d : Dict K V} (hn : (Dict.keys d).Nodup) {k : K} {v : V} (h : (k, v) ∈ d) :
    d.get? k = some v := by
  induction d with
  | nil => cases h
  | cons p d ih =>
    obtain ⟨a, b⟩ := p
    rw [Dict.keys, List.map_cons, List.nodup_cons] at hn
    rw [Dict.get?]
    rcases List.mem_cons.1 h with e | e
    · cases e; rw [if_pos rfl]
    · rw [if_neg, ih hn.2 e]
      rintro rfl
      exact hn.1 (List.mem_map.2 ⟨(a, v), e, rfl⟩)

theorem get?_update_pairs {ps : List (K × V)} {k : K} {o : Option V}
    (h : ∀ v, (k, v) ∈ ps ↔ o = some v) : Dict.get? (Dict.update [] ps) k = o := by
  cases o with
  | none =>
    rw [get?_update_of_not_mem]
    · rfl
    · intro hm
      obtain ⟨⟨a, b⟩, hp, rfl⟩ := List.mem_map.1 hm
      have := (h b).1 hp
      cases this
  | some v =>
    refine get?_update_of_mem _ _ ((h v).2 rfl) ?_
    intro v' hv'
    have := (h v').1 hv'
    exact (Option.some.inj this).symm

/-- C107 (`subdict`): whichever of its two loops is taken, the result has exactly the entries of `d`
whose key is among the given ones. -/
theorem C107_subdict (d : Dict K V) (hn : (Dict.keys d).Nodup) (keys : List K) (k : K) :
    (subdict d keys).get? k = (if k ∈ keys then d.get? k else none) ∧
      (Dict.keys (subdict d keys)).Nodup := by
  unfold subdict
  split
  · refine ⟨get?_update_pairs fun v => ?_, Dict.nodup_update (d := []) (by simp [Dict.keys]) _⟩
    rw [pickKeys_get]
    split
    · rename_i h; simp [h]
    · rename_i h; simp [h]
  · refine ⟨get?_update_pairs fun v => ?_, Dict.nodup_update (d := []) (by simp [Dict.keys]) _⟩
    rw [List.mem_filter]
    split
    · rename_i h
      constructor
      · rintro ⟨h1, _⟩; exact get?_of_mem_nodup hn h1
      · intro h1; exact ⟨mem_of_get? h1, by simpa using h⟩
    · rename_i h; simp [h]

/-- C107 (strict `subdict`): it fails exactly if one of the keys is missing, and otherwise agrees. -/
theorem C107_subdict_strict (d : Dict K V) (hn : (Dict.keys d).Nodup) (keys : List K) :
    (subdictStrict d keys = none ↔ ∃ k ∈ keys, d.get? k = none) ∧
      ∀ r, subdictStrict d keys = some r → ∀ k, r.get? k = (subdict d keys).get? k := by
  have hp : ∀ ks : List K, (pickStrict d ks = none ↔ ∃ k ∈ ks, d.get? k = none) ∧
      ∀ r, pickStrict d ks = some r → r = pickKeys d ks := by
    intro ks
    induction ks with
    | nil => simp [pickStrict, pickKeys]
    | cons x ks ih =>
      unfold pickStrict pickKeys
      cases hg : d.get? x with
      | none => simp [hg]
      | some v =>
        refine ⟨?_, ?_⟩
        · simp only [Option.map_eq_none_iff, ih.1, List.mem_cons]
          constructor
          · rintro ⟨k, h1, h2⟩; exact ⟨k, .inr h1, h2⟩
          · rintro ⟨k, rfl | h1, h2⟩
            · rw [hg] at h2; cases h2
            · exact ⟨k, h1, h2⟩
        · intro r hr
          simp only [Option.map_eq_some_iff] at hr
          obtain ⟨q, hq, rfl⟩ := hr
          rw [ih.2 q hq]
  refine ⟨?_, ?_⟩
  · rw [subdictStrict, Option.map_eq_none_iff]; exact (hp keys).1
  · intro r hr k
    rw [subdictStrict, Option.map_eq_some_iff] at hr
    obtain ⟨q, hq, rfl⟩ := hr
    rw [(hp keys).2 q hq, (C107_subdict d hn keys k).1]
    refine get?_update_pairs fun v => ?_
    rw [pickKeys_get]
    split
    · rename_i h; simp [h]
    · rename_i h; simp [h]

theorem setdefaultStep_get (default : V) (d : Dict K (Option V)) (k k' : K) :
    (setdefaultStep (some default) d k).get? k' =
      if k' = k then some (some (((d.get? k).bind id).getD default)) else d.get? k' := by
  unfold setdefaultStep setdefault
  cases hg : d.get? k with
  | none =>
    simp only [Dict.get?_set, if_true]
    by_cases e : k' = k
    · subst e; simp
    · simp [e, Ne.symm e]
  | some v =>
    cases v with
    | none =>
      simp only [hg, Dict.get?_set]
      by_cases e : k' = k
      · subst e; simp
      · simp [e, Ne.symm e]
    | some v =>
      simp only [hg]
      by_cases e : k' = k
      · subst e; simp [hg]
      · simp [e]

/-- C107 (`setdefaults`): a given key that was missing or `None` gets the default, and nothing else
changes. -/
theorem C107_setdefaults (d : Dict K (Option V)) (keys : List K) (default : V) (k : K) :
    (setdefaults d keys (some default)).get? k =
      if k ∈ keys then
        match d.get? k with
        | some (some v) => some (some v)
        | _ => some (some default)
      else d.get? k := by
  unfold setdefaults
  induction keys generalizing d with
  | nil => simp
  | cons x keys ih =>
    rw [List.foldl_cons, ih, setdefaultStep_get]
    by_cases e : k = x
    · subst e
      cases hg : d.get? k with
      | none => simp
      | some v => cases v <;> simp
    · simp [e]

theorem foldl_set_get (ws : List K) (v : V) (d : Dict K V) (k : K) :
    (ws.foldl (fun acc w => acc.set w v) d).get? k = if k ∈ ws then some v else d.get? k := by
  induction ws generalizing d with
  | nil => simp
  | cons w ws ih =>
    rw [List.foldl_cons, ih, Dict.get?_set]
    by_cases e : k = w
    · subst e; simp
    · simp [e, Ne.symm e]

/-- C107 (`splitkeys`): every word of a key stands for the value of that key; of several keys with the
same word the last one counts. -/
theorem C107_splitkeys (words : K → List K) (before after : Dict K V) (key k : K) (v : V)
    (hk : k ∈ words key) (ha : ∀ p ∈ after, k ∉ words p.1) :
    (splitkeys words (before ++ (key, v) :: after)).get? k = some v ∧
      (∀ d : Dict K V, (∀ p ∈ d, k ∉ words p.1) → (splitkeys words d).get? k = none) := by
  have hnone : ∀ (d acc : Dict K V), (∀ p ∈ d, k ∉ words p.1) →
      (splitkeysLoop words d acc).get? k = acc.get? k := by
    intro d
    induction d with
    | nil => intro acc _; rfl
    | cons p d ih =>
      intro acc h
      rw [splitkeysLoop, ih _ (fun q hq => h q (List.mem_cons_of_mem _ hq)), foldl_set_get,
        if_neg (h p List.mem_cons_self)]
  refine ⟨?_, fun d h => by rw [splitkeys, hnone d [] h]; rfl⟩
  have hgen : ∀ (b acc : Dict K V), (splitkeysLoop words (b ++ (key, v) :: after) acc).get? k = some v := by
    intro b
    induction b with
    | nil =>
      intro acc
      rw [List.nil_append, splitkeysLoop, hnone _ _ ha, foldl_set_get, if_pos hk]
    | cons p b ih => intro acc; rw [List.cons_append, splitkeysLoop]; exact ih _
  exact hgen before []

/-- The order of the entries depends on which loop is taken: that of `keys`, or that of `d`. -/
example : subdict [(1, 10), (2, 20), (3, 30)] [3, 1, 7] = [(3, 30), (1, 10)] ∧
    subdict [(1, 10), (2, 20), (3, 30)] [3, 1, 7, 8] = [(1, 10), (3, 30)] := by decide

example : setdefaults [(1, some 10), (2, none)] [1, 2, 3] (some 0) = [(1, some 10), (2, some 0), (3, some 0)] ∧
    splitkeys (Py.split ' ') [(s!!"a b", 1), (s!!"c b", 2)] = [(s!!"a", 1), (s!!"b", 2), (s!!"c", 2)] := by
  decide

end

/-! ## C108 -/

section
variable {α : Type} (lt : α → α → Bool)

/-- C108: if `<` is a strict weak order (asymmetric, and not being smaller is transitive), then the operators that
`ComparableMixin` derives agree: exactly one of `<`, `==`, `>` holds; `!=`, `<=`, `>=` are the
negations of `==`, `>`, `<`; `==` is an equivalence and `<=` a total preorder that it comes from. -/
theorem C108_operators (asym : ∀ a b, lt a b = true → lt b a = false)
    (trans : ∀ a b c, lt a b = false → lt b c = false → lt a c = false) (a b c : α) :
    ((lt a b = true ∧ cmpEq lt a b = false ∧ cmpGt lt a b = false) ∨
      (lt a b = false ∧ cmpEq lt a b = true ∧ cmpGt lt a b = false) ∨
      (lt a b = false ∧ cmpEq lt a b = false ∧ cmpGt lt a b = true)) ∧
    (cmpNe lt a b = !cmpEq lt a b) ∧ (cmpLe lt a b = !cmpGt lt a b) ∧ (cmpGe lt a b = !lt a b) ∧
    (cmpGt lt a b = lt b a) ∧ (cmpGe lt a b = cmpLe lt b a) ∧
    (cmpLe lt a b = (lt a b || cmpEq lt a b)) ∧
    (cmpEq lt a a = true) ∧ (cmpEq lt a b = cmpEq lt b a) ∧
    (cmpEq lt a b = true → cmpEq lt b c = true → cmpEq lt a c = true) ∧
    (cmpLe lt a b = true → cmpLe lt b c = true → cmpLe lt a c = true) ∧
    (cmpLe lt a b = true ∨ cmpLe lt b a = true) ∧
    (cmpEq lt a b = true ↔ cmpLe lt a b = true ∧ cmpLe lt b a = true) := by
  have irr : lt a a = false := by
    cases h : lt a a with
    | false => rfl
    | true => have := asym a a h; rw [h] at this; cases this
  unfold cmpEq cmpNe cmpLe cmpGe cmpGt
  have h1 := asym a b
  have h2 := trans a b c
  have h3 := trans c b a
  revert h1 h2 h3
  rw [irr]
  cases lt a b <;> cases lt b a <;> cases lt b c <;> cases lt c b <;> simp
  exact fun h h' => ⟨h, h'⟩

/-- For a `<` that is only a partial order, `==` so derived is not transitive. -/
theorem C108_weaker_orders_fail :
    ∃ (lt : Nat → Nat → Bool), (∀ a, lt a a = false) ∧
      (∀ a b c, lt a b = true → lt b c = true → lt a c = true) ∧
      cmpEq lt 1 2 = true ∧ cmpEq lt 2 3 = true ∧ cmpEq lt 1 3 = false := by
  refine ⟨fun a b => decide (a + 2 ≤ b), ?_, ?_, by decide, by decide, by decide⟩
  · intro a; simp
  · intro a b c h1 h2
    simp only [decide_eq_true_eq] at *
    omega

/-- Lengths compare strings by a strict weak order. -/
example : cmpEq (fun a b : Str => decide (a.length < b.length)) (s!!"ab") (s!!"cd") = true ∧
    cmpLe (fun a b : Str => decide (a.length < b.length)) (s!!"abc") (s!!"cd") = false := by decide

end
end Verif
