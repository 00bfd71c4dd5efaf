import Verif.Spec.Table
import Verif.Lemmas.Dict
import Mathlib.Data.List.Induction

/-! The symbol table refines a list of bindings. -/

namespace Verif
open Spec

set_option linter.unusedSectionVars false

variable {K V : Type} [DecidableEq K]

/-- Index of the last occurrence. -/
def lastIdx (k : K) : List K → Option Nat
  | [] => none
  | x :: xs =>
    match lastIdx k xs with
    | some j => some (j + 1)
    | none => if x = k then some 0 else none

theorem lastIdx_snoc (k : K) (l : List K) (x : K) :
    lastIdx k (l ++ [x]) = if x = k then some l.length else lastIdx k l := by
  induction l with
  | nil => simp [lastIdx]
  | cons y l ih =>
    simp only [List.cons_append, lastIdx, ih]
    by_cases h : x = k
    · simp [h]
    · simp [h]

theorem lastIdx_eq_none_iff (k : K) (l : List K) : lastIdx k l = none ↔ k ∉ l := by
  induction l with
  | nil => simp [lastIdx]
  | cons x l ih =>
    simp only [lastIdx, List.mem_cons, not_or]
    cases h : lastIdx k l with
    | some j =>
      have : k ∈ l := by
        by_contra hn
        rw [ih.2 hn] at h; simp at h
      simp [this]
    | none =>
      have := ih.1 h
      by_cases hx : x = k
      · simp [hx]
      · simp [hx, this, Ne.symm hx]

theorem lastIdx_lt {k : K} {l : List K} {i : Nat} (h : lastIdx k l = some i) : i < l.length := by
  induction l generalizing i with
  | nil => simp [lastIdx] at h
  | cons x l ih =>
    simp only [lastIdx] at h
    cases hl : lastIdx k l with
    | some j =>
      rw [hl] at h; simp at h
      have := ih hl
      simp; omega
    | none =>
      rw [hl] at h; simp at h; simp; omega

theorem latest_snoc (bs : List (K × V)) (b : K × V) (k : K) :
    latest (bs ++ [b]) k = if b.1 = k then some b.2 else latest bs k := by
  induction bs with
  | nil => obtain ⟨a, v⟩ := b; simp [latest]
  | cons c bs ih =>
    obtain ⟨a, v⟩ := c
    simp only [List.cons_append, latest, ih]
    by_cases h : b.1 = k
    · simp [h]
    · simp [h]

theorem latest_eq_none_iff (bs : List (K × V)) (k : K) :
    latest bs k = none ↔ k ∉ bs.map Prod.fst := by
  induction bs with
  | nil => simp [latest]
  | cons c bs ih =>
    obtain ⟨a, v⟩ := c
    simp only [latest, List.map_cons, List.mem_cons, not_or]
    cases h : latest bs k with
    | some w =>
      have : k ∈ bs.map Prod.fst := by
        by_contra hn
        rw [ih.2 hn] at h; simp at h
      simp only [this, not_true, and_false, iff_false]; simp
    | none =>
      have := ih.1 h
      by_cases hx : a = k
      · simp [hx]
      · simp only [hx, if_false, this, not_false_eq_true, and_true, true_iff]; exact Ne.symm hx

/-- The binding at the position of the last occurrence is the latest one. -/
theorem getElem?_lastIdx (bs : List (K × V)) (k : K) {i : Nat}
    (h : lastIdx k (bs.map Prod.fst) = some i) : (bs[i]?).map Prod.snd = latest bs k := by
  induction bs using List.reverseRecOn generalizing i with
  | nil => simp [lastIdx] at h
  | append_singleton bs b ih =>
    rw [List.map_append, List.map_singleton, lastIdx_snoc] at h
    rw [latest_snoc]
    by_cases hb : b.1 = k
    · rw [if_pos hb] at h ⊢
      simp only [List.length_map, Option.some.injEq] at h
      subst h
      simp
    · rw [if_neg hb] at h ⊢
      have hl := lastIdx_lt h
      rw [List.length_map] at hl
      rw [List.getElem?_append_left hl]
      exact ih h

/-- Distinct elements in the order of first occurrence. -/
def firsts (l : List K) : List K := l.foldl (fun acc x => if x ∈ acc then acc else acc ++ [x]) []

theorem firsts_snoc (l : List K) (x : K) :
    firsts (l ++ [x]) = if x ∈ firsts l then firsts l else firsts l ++ [x] := by
  unfold firsts
  rw [List.foldl_append]
  rfl

theorem mem_firsts (l : List K) (x : K) : x ∈ firsts l ↔ x ∈ l := by
  induction l using List.reverseRecOn with
  | nil => simp [firsts]
  | append_singleton l y ih =>
    rw [firsts_snoc]
    split
    · rename_i h
      rw [ih, List.mem_append, List.mem_singleton]
      constructor
      · exact Or.inl
      · rintro (h' | e)
        · exact h'
        · subst e; exact ih.1 h
    · rw [List.mem_append, ih, List.mem_append]

theorem firsts_spec (l : List K) : FirstOccurrences l (firsts l) := by
  refine ⟨mem_firsts l, ?_⟩
  induction l using List.reverseRecOn with
  | nil => simp [firsts]
  | append_singleton l y ih =>
    obtain ⟨h1, h2⟩ := ih
    have hp : (firsts l).Pairwise (fun a b => (l ++ [y]).idxOf a < (l ++ [y]).idxOf b) := by
      refine h2.imp_of_mem ?_
      intro a b ha hb hab
      rw [mem_firsts] at ha hb
      rw [List.idxOf_append, List.idxOf_append, if_pos ha, if_pos hb]
      exact hab
    rw [firsts_snoc]
    split
    · exact ⟨h1, hp⟩
    · rename_i hy
      refine ⟨?_, ?_⟩
      · rw [List.nodup_append]
        refine ⟨h1, by simp, ?_⟩
        intro a ha b hb
        simp only [List.mem_singleton] at hb
        rw [hb]; rintro rfl; exact hy ha
      · rw [List.pairwise_append]
        refine ⟨hp, by simp, ?_⟩
        intro a ha b hb
        simp only [List.mem_singleton] at hb
        subst hb
        rw [mem_firsts] at ha
        have hb : b ∉ l := fun h => hy ((mem_firsts l b).2 h)
        rw [List.idxOf_append, List.idxOf_append, if_pos ha, if_neg hb]
        have := List.idxOf_lt_length_of_mem ha
        omega

/-- Names on a stack. -/
def names (st : List (K × V × Option Nat)) : List K := st.map (fun e => e.1)

/-- Bindings on a stack. -/
def binds (st : List (K × V × Option Nat)) : List (K × V) := st.map (fun e => (e.1, e.2.1))

theorem binds_fst (st : List (K × V × Option Nat)) : (binds st).map Prod.fst = names st := by
  simp [binds, names, Function.comp_def]

/-- Each entry holds the position of the previous entry of the same name. -/
inductive Linked : List (K × V × Option Nat) → Prop
  | nil : Linked []
  | snoc {st : List (K × V × Option Nat)} {name : K} {value : V} {prev : Option Nat} :
      Linked st → prev = lastIdx name (names st) → Linked (st ++ [(name, value, prev)])

/-- The lookup dictionary agrees with the stack. -/
def Agrees (st : List (K × V × Option Nat)) (lookup : Dict K Nat) : Prop :=
  (∀ k, lookup.get? k = lastIdx k (names st)) ∧ lookup.keys = firsts (names st)

/-- Representation invariant. -/
def Rep (md : MultiDict K V) (bs : List (K × V)) : Prop :=
  binds md.stack = bs ∧ Linked md.stack ∧ Agrees md.stack md.lookup

theorem linked_of_snoc {st : List (K × V × Option Nat)} {e : K × V × Option Nat}
    (h : Linked (st ++ [e])) : Linked st ∧ e.2.2 = lastIdx e.1 (names st) := by
  generalize hs : st ++ [e] = s' at h
  cases h with
  | nil => simp at hs
  | @snoc st' name value prev h1 h2 =>
    obtain ⟨h3, h4⟩ := List.append_inj' hs rfl
    subst h3
    simp only [List.cons.injEq, and_true] at h4
    subst h4
    exact ⟨h1, h2⟩

theorem rep_empty : Rep (MultiDict.empty : MultiDict K V) [] :=
  ⟨rfl, .nil, by intro k; rfl, rfl⟩

theorem rep_push {md : MultiDict K V} {bs : List (K × V)} (h : Rep md bs) (k : K) (v : V) :
    Rep (md.push k v) (bs ++ [(k, v)]) := by
  obtain ⟨h1, h2, h3, h4⟩ := h
  have hn : names (md.push k v).stack = names md.stack ++ [k] := by simp [MultiDict.push, names]
  refine ⟨?_, ?_, ?_, ?_⟩
  · rw [← h1]; simp [MultiDict.push, binds]
  · exact .snoc h2 (h3 k)
  · intro k'
    rw [hn, lastIdx_snoc]
    show Dict.get? (Dict.set md.lookup k md.stack.length) k' = _
    rw [Dict.get?_set, h3]
    simp [names]
  · rw [hn, firsts_snoc]
    show Dict.keys (Dict.set md.lookup k md.stack.length) = _
    rw [Dict.keys_set, h4]

theorem restore_spec {st : List (K × V × Option Nat)} {e : K × V × Option Nat}
    {lookup : Dict K Nat} (hl : Linked (st ++ [e])) (ha : Agrees (st ++ [e]) lookup) :
    ∃ lookup', MultiDict.restore lookup e.1 e.2.2 = .ok lookup' ∧ Agrees st lookup' := by
  obtain ⟨_, h2⟩ := linked_of_snoc hl
  obtain ⟨h3, h4⟩ := ha
  have hn : names (st ++ [e]) = names st ++ [e.1] := by simp [names]
  rw [hn, firsts_snoc] at h4
  have h3' : ∀ k, lookup.get? k = if e.1 = k then some (names st).length else lastIdx k (names st) := by
    intro k; rw [h3 k, hn, lastIdx_snoc]
  have hnd : (Dict.keys lookup).Nodup := by
    rw [h4, ← firsts_snoc]; exact (firsts_spec _).2.1
  cases hp : e.2.2 with
  | some p =>
    rw [hp] at h2
    have hmem : e.1 ∈ names st := by
      by_contra hn'
      rw [(lastIdx_eq_none_iff _ _).2 hn'] at h2; simp at h2
    have hmf := (mem_firsts _ _).2 hmem
    refine ⟨lookup.set e.1 p, rfl, ?_, ?_⟩
    · intro k
      rw [Dict.get?_set, h3']
      by_cases hk : e.1 = k
      · rw [if_pos hk, h2, hk]
      · rw [if_neg hk, if_neg hk]
    · rw [Dict.keys_set, h4, if_pos hmf, if_pos hmf]
  | none =>
    rw [hp] at h2
    have hmem : e.1 ∉ names st := (lastIdx_eq_none_iff _ _).1 h2.symm
    have hmf : e.1 ∉ firsts (names st) := fun h => hmem ((mem_firsts _ _).1 h)
    rw [if_neg hmf] at h4
    refine ⟨lookup.erase e.1, ?_, ?_, ?_⟩
    · have := h3' e.1
      rw [if_pos rfl] at this
      simp [MultiDict.restore, Dict.del, this]
    · intro k
      rw [Dict.get?_erase _ hnd, h3']
      by_cases hk : e.1 = k
      · rw [if_pos hk, ← hk, ← h2]
      · rw [if_neg hk, if_neg hk]
    · rw [Dict.keys_erase, h4, List.erase_append_right _ hmf]
      simp

theorem rep_pop {md : MultiDict K V} {bs : List (K × V)} (h : Rep md bs) :
    (bs = [] ∧ md.pop = .error .index) ∨
    ∃ b md', bs.getLast? = some b ∧ md.pop = .ok (b, md') ∧ Rep md' bs.dropLast := by
  obtain ⟨h1, h2, h3⟩ := h
  obtain ⟨st, lookup⟩ := md
  dsimp only at h1 h2 h3
  rcases List.eq_nil_or_concat st with e | ⟨st', e, hst⟩
  · left
    subst e
    exact ⟨h1.symm, rfl⟩
  · right
    rw [List.concat_eq_append] at hst
    subst hst
    obtain ⟨lookup', h4, h5⟩ := restore_spec h2 h3
    obtain ⟨name, value, prev⟩ := e
    refine ⟨(name, value), ⟨st', lookup'⟩, ?_, ?_, ?_⟩
    · rw [← h1]; simp [binds]
    · simp only [MultiDict.pop, List.getLast?_append, List.getLast?_singleton, Option.some_or]
      dsimp only at h4
      rw [h4]
      simp
    · exact ⟨by rw [← h1]; simp [binds], (linked_of_snoc h2).1, h5⟩

theorem resetLoop_spec (st rest : List (K × V × Option Nat)) (lookup : Dict K Nat)
    (hl : Linked (st ++ rest)) (ha : Agrees (st ++ rest) lookup) :
    ∃ lookup', MultiDict.resetLoop lookup rest.reverse = .ok lookup' ∧ Linked st ∧
      Agrees st lookup' := by
  induction rest using List.reverseRecOn generalizing lookup with
  | nil =>
    rw [List.append_nil] at hl ha
    exact ⟨lookup, rfl, hl, ha⟩
  | append_singleton rest e ih =>
    rw [← List.append_assoc] at hl ha
    obtain ⟨lookup', h1, h2⟩ := restore_spec hl ha
    obtain ⟨lookup'', h3, h4⟩ := ih lookup' (linked_of_snoc hl).1 h2
    refine ⟨lookup'', ?_, h4⟩
    obtain ⟨name, value, prev⟩ := e
    simp only [List.reverse_append, List.reverse_singleton, List.singleton_append,
      MultiDict.resetLoop]
    dsimp only at h1
    rw [h1]
    exact h3

theorem rep_reset {md : MultiDict K V} {bs : List (K × V)} (h : Rep md bs) (n : Nat) :
    (bs.length < n ∧ md.reset n = .error .position) ∨
    ∃ md', n ≤ bs.length ∧ md.reset n = .ok md' ∧ Rep md' (bs.take n) := by
  obtain ⟨h1, h2, h3⟩ := h
  have hlen : md.stack.length = bs.length := by rw [← h1]; simp [binds]
  by_cases hn : bs.length < n
  · left
    exact ⟨hn, by unfold MultiDict.reset; rw [if_pos (by omega)]⟩
  · right
    have e : md.stack.take n ++ md.stack.drop n = md.stack := List.take_append_drop _ _
    obtain ⟨lookup', g1, g2, g3⟩ := resetLoop_spec (md.stack.take n) (md.stack.drop n) md.lookup
      (by rw [e]; exact h2) (by rw [e]; exact h3)
    refine ⟨⟨md.stack.take n, lookup'⟩, by omega, ?_, ?_, g2, g3⟩
    · unfold MultiDict.reset
      rw [if_neg (by omega), g1]
    · rw [← h1]; simp [binds, List.map_take]

/-- One operation. -/
theorem rep_step {md : MultiDict K V} {bs : List (K × V)} (h : Rep md bs) (op : TableOp K V) :
    Rep (tableStep md op).1 (specStep bs op).1 ∧ (tableStep md op).2 = (specStep bs op).2 := by
  cases op with
  | push k v => exact ⟨rep_push h k v, rfl⟩
  | pop =>
    rcases rep_pop h with ⟨h1, h2⟩ | ⟨b, md', h1, h2, h3⟩
    · subst h1
      simp only [tableStep, h2, specStep, List.getLast?_nil]
      exact ⟨h, trivial⟩
    · simp only [tableStep, h2, specStep, h1]
      exact ⟨h3, trivial⟩
  | reset n =>
    rcases rep_reset h n with ⟨h1, h2⟩ | ⟨md', h1, h2, h3⟩
    · simp only [tableStep, h2, specStep, h1, if_true]
      exact ⟨h, trivial⟩
    · have : ¬ bs.length < n := by omega
      simp only [tableStep, h2, specStep, this, if_false]
      exact ⟨h3, trivial⟩

theorem rep_run {md : MultiDict K V} {bs : List (K × V)} (h : Rep md bs) (ops : List (TableOp K V)) :
    Rep (tableRun md ops).1 (specRun bs ops).1 ∧ (tableRun md ops).2 = (specRun bs ops).2 := by
  induction ops generalizing md bs with
  | nil => exact ⟨h, rfl⟩
  | cons op ops ih =>
    obtain ⟨h1, h2⟩ := rep_step h op
    obtain ⟨h3, h4⟩ := ih h1
    simp only [tableRun, specRun]
    exact ⟨h3, by rw [h2, h4]⟩

theorem rep_get {md : MultiDict K V} {bs : List (K × V)} (h : Rep md bs) (k : K) :
    md.get k = .ok (latest bs k) := by
  obtain ⟨h1, h2, h3, h4⟩ := h
  unfold MultiDict.get
  rw [h3, ← binds_fst, h1]
  cases hi : lastIdx k (bs.map Prod.fst) with
  | none =>
    have := (lastIdx_eq_none_iff _ _).1 hi
    rw [(latest_eq_none_iff _ _).2 this]
  | some i =>
    dsimp only
    have hg := getElem?_lastIdx bs k hi
    have hb : bs[i]? = (md.stack[i]?).map (fun e => (e.1, e.2.1)) := by
      rw [← h1]; simp [binds]
    have hlt := lastIdx_lt hi
    rw [List.length_map] at hlt
    have hlen : md.stack.length = bs.length := by rw [← h1]; simp [binds]
    have hs : md.stack[i]? = some (md.stack[i]'(by omega)) := List.getElem?_eq_getElem (by omega)
    rw [hs] at hb ⊢
    rw [hb] at hg
    rw [← hg]
    rfl

theorem rep_contains {md : MultiDict K V} {bs : List (K × V)} (h : Rep md bs) (k : K) :
    md.contains k = true ↔ k ∈ bs.map Prod.fst := by
  obtain ⟨h1, h2, h3, h4⟩ := h
  unfold MultiDict.contains
  rw [Dict.get?_isSome_iff, h4, mem_firsts, ← binds_fst, h1]

theorem linked_unique {st st' : List (K × V × Option Nat)} (h : Linked st) (h' : Linked st')
    (hb : binds st = binds st') : st = st' := by
  induction h generalizing st' with
  | nil =>
    cases st' with
    | nil => rfl
    | cons e st' => simp [binds] at hb
  | @snoc st name value prev h1 h2 ih =>
    rcases List.eq_nil_or_concat st' with e | ⟨st'', e, hst⟩
    · subst e; simp [binds] at hb
    · rw [List.concat_eq_append] at hst
      subst hst
      obtain ⟨h3, h4⟩ := linked_of_snoc h'
      have hb' : binds st = binds st'' ∧ (name, value) = (e.1, e.2.1) := by
        simp only [binds, List.map_append, List.map_singleton] at hb
        obtain ⟨a, b⟩ := List.append_inj' hb rfl
        exact ⟨a, by simpa using b⟩
      have hst := ih h3 hb'.1
      subst hst
      simp only [Prod.mk.injEq] at hb'
      obtain ⟨_, e1, e2⟩ := hb'
      obtain ⟨n, v, p⟩ := e
      dsimp only at e1 e2 h4
      subst e1; subst e2
      rw [h2, h4]

/-- The representation is unique. -/
theorem rep_unique {md md' : MultiDict K V} {bs : List (K × V)} (h : Rep md bs) (h' : Rep md' bs) :
    md = md' := by
  obtain ⟨h1, h2, h3, h4⟩ := h
  obtain ⟨g1, g2, g3, g4⟩ := h'
  have hs := linked_unique h2 g2 (h1.trans g1.symm)
  obtain ⟨st, lk⟩ := md
  obtain ⟨st', lk'⟩ := md'
  dsimp only at hs h3 h4 g3 g4
  subst hs
  congr 1
  apply Dict.ext
  · rw [h4]; exact (firsts_spec _).2.1
  · rw [h4, g4]
  · intro k; rw [h3, g3]

/-- Operations above a position do not change what is below it. -/
theorem specRun_take {n : Nat} {bs : List (K × V)} {ops : List (TableOp K V)}
    (hn : n ≤ bs.length) (h : StaysAbove n bs ops) :
    (specRun bs ops).1.take n = bs.take n ∧ n ≤ (specRun bs ops).1.length := by
  induction ops generalizing bs with
  | nil => exact ⟨rfl, hn⟩
  | cons op ops ih =>
    obtain ⟨h1, h2⟩ := h
    obtain ⟨h3, h4⟩ := ih h1 h2
    simp only [specRun]
    refine ⟨?_, h4⟩
    rw [h3]
    cases op with
    | push k v =>
      simp only [specStep]
      rw [List.take_append_of_le_length hn]
    | pop =>
      simp only [specStep] at h1 ⊢
      cases hg : bs.getLast? with
      | none => rfl
      | some b =>
        rw [hg] at h1
        dsimp only at h1 ⊢
        rw [List.dropLast_eq_take, List.take_take]
        rw [List.length_dropLast] at h1
        rw [Nat.min_eq_left h1]
    | reset m =>
      simp only [specStep] at h1 ⊢
      by_cases hm : bs.length < m
      · rw [if_pos hm]
      · rw [if_neg hm] at h1 ⊢
        dsimp only at h1 ⊢
        rw [List.length_take] at h1
        rw [List.take_take, Nat.min_eq_left (by omega)]

/-! ### Batch operations -/

theorem rep_pushall {md : MultiDict K V} {bs : List (K × V)} (h : Rep md bs) (ps : List (K × V)) :
    Rep (md.pushall ps) (bs ++ ps) := by
  induction ps generalizing md bs with
  | nil => simpa [MultiDict.pushall] using h
  | cons p ps ih =>
    have := ih (rep_push h p.1 p.2)
    simpa [MultiDict.pushall] using this

theorem latest_append (as bs : List (K × V)) (k : K) :
    latest (as ++ bs) k = (latest bs k).or (latest as k) := by
  induction as with
  | nil => simp [latest]
  | cons a as ih =>
    simp only [List.cons_append, latest, ih]
    cases latest bs k <;> simp

theorem latest_isSome_iff (bs : List (K × V)) (k : K) :
    (latest bs k).isSome ↔ k ∈ bs.map Prod.fst := by
  have := latest_eq_none_iff bs k
  cases h : latest bs k <;> simp_all

theorem rep_pushnew {md : MultiDict K V} {bs : List (K × V)} (h : Rep md bs) (ps : List (K × V)) :
    ∃ new, Rep (md.pushnew ps) (bs ++ new) ∧
      ∀ k, latest (bs ++ new) k = (latest bs k).or (Dict.get? ps k) := by
  induction ps generalizing md bs with
  | nil => exact ⟨[], by simpa [MultiDict.pushnew] using h, fun k => by simp [Dict.get?]⟩
  | cons p ps ih =>
    obtain ⟨k0, v0⟩ := p
    by_cases hk : md.contains k0 = true
    · obtain ⟨new, h1, h2⟩ := ih h
      refine ⟨new, by simpa [MultiDict.pushnew, hk] using h1, fun k => ?_⟩
      rw [h2 k]
      simp only [Dict.get?]
      by_cases e : k0 = k
      · subst e
        have := (latest_isSome_iff bs k0).2 ((rep_contains h k0).1 hk)
        obtain ⟨w, hw⟩ := Option.isSome_iff_exists.1 this
        simp [hw]
      · simp [e]
    · obtain ⟨new, h1, h2⟩ := ih (rep_push h k0 v0)
      have hn : latest bs k0 = none := by
        rw [latest_eq_none_iff]
        exact fun hm => hk ((rep_contains h k0).2 hm)
      refine ⟨(k0, v0) :: new, by simpa [MultiDict.pushnew, hk] using h1, fun k => ?_⟩
      have := h2 k
      rw [List.append_assoc] at this
      simp only [List.singleton_append] at this
      rw [this, latest_append]
      simp only [latest, Dict.get?]
      by_cases e : k0 = k
      · subst e; simp [hn]
      · simp [e]

theorem keys_update (ps : List (K × V)) :
    Dict.keys (Dict.update [] ps) = firsts (ps.map Prod.fst) ∧
    ∀ k, Dict.get? (Dict.update [] ps) k = latest ps k := by
  induction ps using List.reverseRecOn with
  | nil => exact ⟨rfl, fun k => rfl⟩
  | append_singleton ps p ih =>
    obtain ⟨h1, h2⟩ := ih
    rw [Dict.update_append]
    simp only [Dict.update]
    refine ⟨?_, fun k => ?_⟩
    · rw [Dict.keys_set, h1, List.map_append, List.map_singleton, firsts_snoc]
    · rw [Dict.get?_set, h2, latest_append]
      simp only [latest]
      by_cases e : p.1 = k <;> simp [e]

end Verif
