import Verif.Spec.Project
import Verif.Lemmas.Dict

/-
Lemmas about imports between scripts.
-/

namespace Verif
open Py Spec

section
variable {M E : Type} {P : Project M E}

theorem hyLocate_at {p loc : Str} (h : At P p loc) (cache : List Str) (ref : Referrer) :
    hyLocate P.env cache p ref = .ok (if loc ∈ cache then .cached loc else .read loc none) := by
  unfold hyLocate
  cases h with
  | resolved hf hp hne hx hd =>
    rw [if_neg (by cases p <;> simp_all)]
    unfold hyStep1
    rw [hf]
    dsimp only
    rw [hp]
    dsimp only
    split
    · rfl
    · rw [if_pos ⟨hne, hx⟩]
  | folder hr hd hx =>
    have hp : p.head? ≠ some '.' := by
      cases p with
      | nil => simp
      | cons c p => simp only [List.mem_cons, not_or] at hd; simpa using Ne.symm hd.1
    rw [if_neg (by cases p <;> simp_all)]
    have h3 : hyStep3 P.env cache p ref = .ok (if underFolder P.env P.env.cwd p ∈ cache then
        .cached (underFolder P.env P.env.cwd p) else .read (underFolder P.env P.env.cwd p) none) := by
      unfold hyStep3
      rw [joinPath_one_dot _ _ _ _ hp]
      dsimp only
      change (if underFolder P.env P.env.cwd p ∈ cache then _ else
        if P.env.exist (underFolder P.env P.env.cwd p) = true then _ else _) = _
      rw [if_pos hx]
      split <;> rfl
    have h2 : hyStep2 P.env cache p ref = hyStep3 P.env cache p ref := by
      unfold hyStep2
      rw [if_neg (by simpa [contains] using hd)]
    unfold hyStep1
    split
    · rw [h2, h3]
    · rename_i f hf
      rw [hr f hf]
      dsimp only
      rw [h2, h3]

theorem at_unique {p loc loc' : Str} (h : At P p loc) (h' : At P p loc') : loc = loc' := by
  have := (hyLocate_at h [] ⟨none, none⟩).symm.trans (hyLocate_at h' [] ⟨none, none⟩)
  simpa using this

theorem at_exist {p loc : Str} (h : At P p loc) : P.env.exist loc = true := by cases h <;> assumption

theorem at_foreign {p loc : Str} {r} (h : At P p loc) (h' : Foreign P p r) : False := by
  have := (hyLocate_at h [] ⟨none, none⟩).symm.trans (h'.1 [] ⟨none, none⟩ (by simp))
  simp at this

theorem foreign_unique {p : Str} {r r' : Except (ProjErr E) M} (h : Foreign P p r) (h' : Foreign P p r') :
    r = r' := (h.2 ⟨none, none⟩).symm.trans (h'.2 ⟨none, none⟩)

mutual

theorem means_unique {loc : Str} {m : M} : Means P loc m → ∀ m', Means P loc m' → m = m'
  | .mk h, _, .mk h' => gives_unique h _ h'

theorem gives_unique {t : Script M E} {m : M} : Gives P t m → ∀ m', Gives P t m' → m = m'
  | .done, _, .done => rfl
  | .step a b, m', .step a' b' => by
    have e := denotes_unique a _ a'
    subst e
    exact gives_unique b m' b'

theorem denotes_unique {p : Str} {m : M} : Denotes P p m → ∀ m', Denotes P p m' → m = m'
  | .file a b, m', h' => by
    cases h' with
    | file a' b' => rw [← at_unique a a'] at b'; exact means_unique b m' b'
    | python f => exact (at_foreign a f).elim
  | .python f, m', h' => by
    cases h' with
    | file a' b' => exact (at_foreign a' f).elim
    | python f' => simpa using foreign_unique f f'

end

/-- Following the meanings of the imports, a translation asks for a file. -/
inductive Asks (P : Project M E) : Script M E → Str → Prop
  | here {p k loc} : At P p loc → Asks P (.request p k) loc
  | later {p k m loc} : Denotes P p m → Asks P (k m) loc → Asks P (.request p k) loc

/-- A file that the translation of another one asks for. -/
def Below (P : Project M E) (l' l : Str) : Prop := Asks P (P.script l none) l'

mutual

theorem means_acc {loc : Str} {m : M} : Means P loc m → Acc (Below P) loc
  | .mk h => Acc.intro _ (fun _ hl => gives_acc h _ hl)

theorem gives_acc {t : Script M E} {m : M} : Gives P t m → ∀ l, Asks P t l → Acc (Below P) l
  | .done, _, h => by cases h
  | .step a b, l, h => by
    cases h with
    | here ha => exact denotes_acc a l ha
    | later d k =>
      have e := denotes_unique a _ d
      subst e
      exact gives_acc b l k

theorem denotes_acc {p : Str} {m : M} : Denotes P p m → ∀ l, At P p l → Acc (Below P) l
  | .file a b, l, h => by rw [← at_unique a h]; exact means_acc b
  | .python f, _, h => (at_foreign h f).elim

end

/-- Reflexive and transitive closure of `Below`. -/
inductive Under (P : Project M E) : Str → Str → Prop
  | refl {l} : Under P l l
  | step {l l' l''} : Below P l' l → Under P l' l'' → Under P l l''

theorem acc_no_cycle {l : Str} (h : Acc (Below P) l) : ∀ {l'}, Below P l' l → Under P l' l → False := by
  have trans : ∀ {a b c}, Under P a b → Under P b c → Under P a c := by
    intro a b c hab hbc
    induction hab with
    | refl => exact hbc
    | step h _ ih => exact .step h (ih hbc)
  induction h with
  | intro x hx ih =>
    intro l' hb hu
    cases hu with
    | refl => exact ih _ hb hb .refl
    | step hb' hu' => exact ih l' hb hb' (trans hu' (.step hb .refl))

/-! ### The state of the loader -/

/-- The cache holds the meanings of files, and its keys are the files translated, each once. -/
structure GoodState (P : Project M E) (st : HyState M) : Prop where
  val : ∀ l m, st.cache.get? l = some m → Means P l m
  exist : ∀ l ∈ st.cache.keys, P.env.exist l = true
  keys : ∀ l, l ∈ st.translated ↔ l ∈ st.cache.keys
  nodup : st.translated.Nodup

theorem goodState_empty : GoodState P ⟨[], []⟩ :=
  ⟨by simp [Dict.get?], by simp [Dict.keys], by simp [Dict.keys], by simp⟩

theorem goodState_store {st : HyState M} (h : GoodState P st) {l : Str} {m : M} (hm : Means P l m)
    (hx : P.env.exist l = true) (hn : l ∉ st.translated) : GoodState P (st.store l m) := by
  refine ⟨?_, ?_, ?_, ?_⟩
  · intro l' m' hg
    simp only [HyState.store, Dict.get?_set] at hg
    split at hg
    · rename_i e
      simp only [Option.some.injEq] at hg
      subst hg
      rw [← e] at *
      exact hm
    · exact h.val _ _ hg
  · intro l' hl
    simp only [HyState.store] at hl
    rw [Dict.keys_set] at hl
    split at hl
    · exact h.exist _ hl
    · rcases List.mem_append.1 hl with hl | hl
      · exact h.exist _ hl
      · rw [List.mem_singleton.1 hl]; exact hx
  · intro l'
    have hk := h.keys l'
    have hk' := h.keys l
    simp only [HyState.store]
    rw [Dict.keys_set]
    split
    · rename_i hc
      exact (hn (hk'.2 hc)).elim
    · simp [hk]
  · simp only [HyState.store]
    rw [List.nodup_append]
    refine ⟨h.nodup, by simp, ?_⟩
    intro a ha b hb
    rw [List.mem_singleton.1 hb]
    exact fun e => hn (e ▸ ha)

/-- What an import does to a good state. -/
def ImportOk (P : Project M E) (st : HyState M) (p : Str)
    (r : Except (ProjErr E) M × HyState M) : Prop :=
  GoodState P r.2 ∧ (∀ l ∈ st.translated, l ∈ r.2.translated) ∧
  (∀ m, r.1 = .ok m → Denotes P p m) ∧
  (∀ l ∈ r.2.translated, l ∈ st.translated ∨ ∃ l', At P p l' ∧ Under P l' l)

/-- What a translation does to a good state. -/
def RunOk (P : Project M E) (st : HyState M) (t : Script M E)
    (r : Except (ProjErr E) M × HyState M) : Prop :=
  GoodState P r.2 ∧ (∀ l ∈ st.translated, l ∈ r.2.translated) ∧
  (∀ m, r.1 = .ok m → Gives P t m) ∧
  (∀ l ∈ r.2.translated, l ∈ st.translated ∨ ∃ l', Asks P t l' ∧ Under P l' l)

section
variable (hP : PlainProject P)
include hP

theorem importScript_ok_of {fuel : Nat}
    (ih : ∀ st ref t r, GoodState P st → (∀ p, Uses t p → Plain P p) →
      runScript P fuel st ref t = some r → RunOk P st t r)
    {st : HyState M} {p : Str} {ref : Referrer} {r : Except (ProjErr E) M × HyState M}
    (hs : GoodState P st) (hp : Plain P p) (h : importScript P (fuel + 1) st p ref = some r) :
    ImportOk P st p r := by
  simp only [importScript] at h
  rcases hp with ⟨loc, ha⟩ | ⟨r', hf⟩
  · rw [hyLocate_at ha] at h
    by_cases hc : loc ∈ st.cache.keys
    · rw [if_pos hc] at h
      simp only [Option.some.injEq] at h
      subst h
      refine ⟨hs, fun l hl => hl, ?_, fun l hl => .inl hl⟩
      intro m hm
      simp only [fromCache] at hm
      split at hm
      · rename_i m' hg
        simp only [Except.ok.injEq] at hm
        subst hm
        exact .file ha (hs.val _ _ hg)
      · simp at hm
    · rw [if_neg hc] at h
      simp only [packageOf] at h
      cases hr : runScript P fuel st { root := P.folder loc, package := none } (P.script loc none) with
      | none => rw [hr] at h; simp [keepModule] at h
      | some r' =>
        rw [hr] at h
        obtain ⟨o1, o2, o3, o4⟩ := ih _ _ _ _ hs (hP loc) hr
        obtain ⟨r1, st'⟩ := r'
        cases r1 with
        | error e =>
          simp only [keepModule, Option.some.injEq] at h
          subst h
          refine ⟨o1, o2, by simp, ?_⟩
          intro l hl
          rcases o4 l hl with h4 | ⟨l', h4, h5⟩
          · exact .inl h4
          · exact .inr ⟨loc, ha, .step h4 h5⟩
        | ok m =>
          simp only [keepModule, Option.some.injEq] at h
          subst h
          have hm : Means P loc m := .mk (o3 m rfl)
          have hn : loc ∉ st'.translated := by
            intro hl
            rcases o4 loc hl with h4 | ⟨l', h4, h5⟩
            · exact hc ((hs.keys loc).1 h4)
            · exact acc_no_cycle (means_acc hm) h4 h5
          refine ⟨goodState_store o1 hm (at_exist ha) hn, ?_, ?_, ?_⟩
          · intro l hl
            simp only [HyState.store, List.mem_append]
            exact .inl (o2 l hl)
          · intro m' e
            simp only [Except.ok.injEq] at e
            subst e
            exact .file ha hm
          · intro l hl
            simp only [HyState.store, List.mem_append, List.mem_singleton] at hl
            rcases hl with hl | hl
            · rcases o4 l hl with h4 | ⟨l', h4, h5⟩
              · exact .inl h4
              · exact .inr ⟨loc, ha, .step h4 h5⟩
            · subst hl
              exact .inr ⟨_, ha, .refl⟩
  · rw [hf.1 _ _ hs.exist] at h
    simp only [Option.some.injEq] at h
    subst h
    refine ⟨hs, fun l hl => hl, ?_, fun l hl => .inl hl⟩
    intro m hm
    dsimp only at hm
    rw [hf.2] at hm
    subst hm
    exact .python hf

theorem runScript_ok (fuel : Nat) : ∀ st ref t r, GoodState P st → (∀ p, Uses t p → Plain P p) →
    runScript P fuel st ref t = some r → RunOk P st t r := by
  induction fuel using Nat.strongRecOn with
  | _ fuel ih =>
    intro st ref t r hs hu h
    cases fuel with
    | zero => simp [runScript] at h
    | succ n =>
      cases t with
      | done r' =>
        cases r' with
        | error e =>
          simp only [runScript, Option.some.injEq] at h
          subst h
          exact ⟨hs, fun l hl => hl, by simp, fun l hl => .inl hl⟩
        | ok m =>
          simp only [runScript, Option.some.injEq] at h
          subst h
          refine ⟨hs, fun l hl => hl, ?_, fun l hl => .inl hl⟩
          intro m' e
          simp only [Except.ok.injEq] at e
          subst e
          exact .done
      | request p k =>
        simp only [runScript] at h
        cases hi : importScript P n st p ref with
        | none => rw [hi] at h; simp at h
        | some ri =>
          rw [hi] at h
          cases n with
          | zero => simp [importScript] at hi
          | succ n' =>
            obtain ⟨o1, o2, o3, o4⟩ := importScript_ok_of hP (ih n' (by omega)) hs (hu p .here) hi
            obtain ⟨r1, st'⟩ := ri
            cases r1 with
            | error e =>
              simp only [Option.some.injEq] at h
              subst h
              refine ⟨o1, o2, by simp, ?_⟩
              intro l hl
              rcases o4 l hl with h4 | ⟨l', h4, h5⟩
              · exact .inl h4
              · exact .inr ⟨l', .here h4, h5⟩
            | ok m =>
              dsimp only at h
              obtain ⟨q1, q2, q3, q4⟩ := ih (n' + 1) (by omega) _ _ _ _ o1 (fun p' hp' => hu p' (.later m hp')) h
              have hd := o3 m rfl
              refine ⟨q1, fun l hl => q2 l (o2 l hl), fun m' e => .step hd (q3 m' e), ?_⟩
              intro l hl
              rcases q4 l hl with h4 | ⟨l', h4, h5⟩
              · rcases o4 l h4 with h6 | ⟨l', h6, h7⟩
                · exact .inl h6
                · exact .inr ⟨l', .here h6, h7⟩
              · exact .inr ⟨l', .later hd h4, h5⟩

theorem importScript_ok {fuel : Nat} {st : HyState M} {p : Str} {ref : Referrer}
    {r : Except (ProjErr E) M × HyState M}
    (hs : GoodState P st) (hp : Plain P p) (h : importScript P fuel st p ref = some r) :
    ImportOk P st p r := by
  cases fuel with
  | zero => simp [importScript] at h
  | succ n => exact importScript_ok_of hP (runScript_ok hP n) hs hp h

theorem importAll_ok {fuel : Nat} : ∀ {reqs : List (Str × Referrer)} {st : HyState M} {rs st'},
    GoodState P st → (∀ q ∈ reqs, Plain P q.1) → importAll P fuel st reqs = some (rs, st') →
    GoodState P st' ∧ List.Forall₂ (fun q r => ∀ m, r = .ok m → Denotes P q.1 m) reqs rs := by
  intro reqs
  induction reqs with
  | nil =>
    intro st rs st' hs _ h
    simp only [importAll, Option.some.injEq, Prod.mk.injEq] at h
    obtain ⟨rfl, rfl⟩ := h
    exact ⟨hs, .nil⟩
  | cons q reqs ih =>
    intro st rs st' hs hp h
    obtain ⟨p, ref⟩ := q
    simp only [importAll] at h
    split at h
    · simp at h
    · rename_i r st1 hi
      obtain ⟨o1, _, o3, _⟩ := importScript_ok hP hs (hp (p, ref) (by simp)) hi
      rw [Option.map_eq_some_iff] at h
      obtain ⟨⟨rs', st2⟩, h1, h2⟩ := h
      simp only [Prod.mk.injEq] at h2
      obtain ⟨rfl, rfl⟩ := h2
      obtain ⟨g, f⟩ := ih o1 (fun q hq => hp q (by simp [hq])) h1
      exact ⟨g, .cons o3 f⟩

/-! ### Completeness and termination -/

mutual

theorem means_runs {loc : Str} {m : M} : Means P loc m → ∀ st ref, GoodState P st →
    ∃ N st', ∀ n, N ≤ n → runScript P n st ref (P.script loc none) = some (.ok m, st')
  | .mk h, st, ref, hs => gives_runs h st ref hs (hP loc)

theorem gives_runs {t : Script M E} {m : M} : Gives P t m → ∀ st ref, GoodState P st →
    (∀ p, Uses t p → Plain P p) →
    ∃ N st', ∀ n, N ≤ n → runScript P n st ref t = some (.ok m, st')
  | .done, st, ref, _, _ => ⟨1, st, fun n hn => by
      obtain ⟨k, rfl⟩ : ∃ k, n = k + 1 := ⟨n - 1, by omega⟩
      simp [runScript]⟩
  | .step (p := p) (m := m1) a b, st, ref, hs, hu => by
    obtain ⟨N, st', h⟩ := denotes_runs a st ref hs
    have hs' := (importScript_ok hP hs (hu p .here) (h N (Nat.le_refl _))).1
    obtain ⟨N', st'', h'⟩ := gives_runs b st' ref hs' (fun q hq => hu q (.later _ hq))
    refine ⟨max N N' + 1, st'', ?_⟩
    intro n hn
    obtain ⟨k, rfl⟩ : ∃ k, n = k + 1 := ⟨n - 1, by omega⟩
    simp only [runScript]
    rw [h k (by omega)]
    exact h' k (by omega)

theorem denotes_runs {p : Str} {m : M} : Denotes P p m → ∀ st ref, GoodState P st →
    ∃ N st', ∀ n, N ≤ n → importScript P n st p ref = some (.ok m, st')
  | .file (loc := loc) a b, st, ref, hs => by
    by_cases hc : loc ∈ st.cache.keys
    · refine ⟨1, st, ?_⟩
      intro n hn
      obtain ⟨k, rfl⟩ : ∃ k, n = k + 1 := ⟨n - 1, by omega⟩
      simp only [importScript]
      rw [hyLocate_at a, if_pos hc]
      have := (Dict.get?_isSome_iff st.cache loc).2 hc
      obtain ⟨m', hm'⟩ := Option.isSome_iff_exists.1 this
      have e := means_unique b m' (hs.val _ _ hm')
      subst e
      simp [fromCache, hm']
    · obtain ⟨N, st', h⟩ := means_runs b st { root := P.folder loc, package := none } hs
      refine ⟨N + 1, st'.store loc m, ?_⟩
      intro n hn
      obtain ⟨k, rfl⟩ : ∃ k, n = k + 1 := ⟨n - 1, by omega⟩
      simp only [importScript]
      rw [hyLocate_at a, if_neg hc]
      simp only [packageOf]
      rw [h k (by omega)]
      rfl
  | .python f, st, ref, hs => by
    refine ⟨1, st, ?_⟩
    intro n hn
    obtain ⟨k, rfl⟩ : ∃ k, n = k + 1 := ⟨n - 1, by omega⟩
    simp only [importScript]
    rw [f.1 _ _ hs.exist]
    dsimp only
    rw [f.2]

end

theorem runScript_ends {t : Script M E} (hu : ∀ p, Uses t p → Plain P p)
    (hi : ∀ p, Uses t p → ∀ st ref, GoodState P st → ∃ N r, ∀ n, N ≤ n → importScript P n st p ref = some r) :
    ∀ st ref, GoodState P st → ∃ N r, ∀ n, N ≤ n → runScript P n st ref t = some r := by
  induction t with
  | done r =>
    intro st ref _
    cases r with
    | error e =>
      refine ⟨1, (.error (.script e), st), ?_⟩
      intro n hn
      obtain ⟨k, rfl⟩ : ∃ k, n = k + 1 := ⟨n - 1, by omega⟩
      simp [runScript]
    | ok m =>
      refine ⟨1, (.ok m, st), ?_⟩
      intro n hn
      obtain ⟨k, rfl⟩ : ∃ k, n = k + 1 := ⟨n - 1, by omega⟩
      simp [runScript]
  | request p k ih =>
    intro st ref hs
    obtain ⟨N, ⟨r, st'⟩, h⟩ := hi p .here st ref hs
    have ho := importScript_ok hP hs (hu p .here) (h N (Nat.le_refl _))
    cases r with
    | error e =>
      refine ⟨N + 1, (.error e, st'), ?_⟩
      intro n hn
      obtain ⟨j, rfl⟩ : ∃ k, n = k + 1 := ⟨n - 1, by omega⟩
      simp only [runScript]
      rw [h j (by omega)]
    | ok m =>
      obtain ⟨N', r', h'⟩ := ih m (fun q hq => hu q (.later m hq)) (fun q hq => hi q (.later m hq)) st' ref ho.1
      refine ⟨max N N' + 1, r', ?_⟩
      intro n hn
      obtain ⟨j, rfl⟩ : ∃ k, n = k + 1 := ⟨n - 1, by omega⟩
      simp only [runScript]
      rw [h j (by omega)]
      exact h' j (by omega)

theorem importScript_ends {p : Str} (hp : Plain P p)
    (ha : ∀ loc, At P p loc → Acc (fun l' l => MayImport P l l') loc) :
    ∀ st ref, GoodState P st → ∃ N r, ∀ n, N ≤ n → importScript P n st p ref = some r := by
  have file : ∀ loc, Acc (fun l' l => MayImport P l l') loc → ∀ p, At P p loc →
      ∀ st ref, GoodState P st → ∃ N r, ∀ n, N ≤ n → importScript P n st p ref = some r := by
    intro loc hacc
    induction hacc with
    | intro loc _ ih =>
      intro p hp st ref hs
      by_cases hc : loc ∈ st.cache.keys
      · refine ⟨1, (fromCache st loc, st), ?_⟩
        intro n hn
        obtain ⟨k, rfl⟩ : ∃ k, n = k + 1 := ⟨n - 1, by omega⟩
        simp only [importScript]
        rw [hyLocate_at hp, if_pos hc]
      · obtain ⟨N, r, h⟩ := runScript_ends hP (hP loc) (by
          intro q hq st' ref' hs'
          rcases hP loc q hq with ⟨loc', hl⟩ | ⟨r', hf⟩
          · exact ih loc' ⟨q, hq, hl⟩ q hl st' ref' hs'
          · refine ⟨1, (fromPython P q ref', st'), ?_⟩
            intro n hn
            obtain ⟨k, rfl⟩ : ∃ k, n = k + 1 := ⟨n - 1, by omega⟩
            simp only [importScript]
            rw [hf.1 _ _ hs'.exist]) st { root := P.folder loc, package := none } hs
        refine ⟨N + 1, (match r with | (.ok m, st) => (.ok m, st.store loc m) | r => r), ?_⟩
        intro n hn
        obtain ⟨k, rfl⟩ : ∃ k, n = k + 1 := ⟨n - 1, by omega⟩
        simp only [importScript]
        rw [hyLocate_at hp, if_neg hc]
        simp only [packageOf]
        rw [h k (by omega)]
        obtain ⟨r1, r2⟩ := r
        cases r1 <;> rfl
  intro st ref hs
  rcases hp with ⟨loc, hl⟩ | ⟨r', hf⟩
  · exact file loc (ha loc hl) p hl st ref hs
  · refine ⟨1, (fromPython P p ref, st), ?_⟩
    intro n hn
    obtain ⟨k, rfl⟩ : ∃ k, n = k + 1 := ⟨n - 1, by omega⟩
    simp only [importScript]
    rw [hf.1 _ _ hs.exist]

end

/-! ### Cycles -/

/-- No file of the set is cached. -/
def NoneCached (S : Str → Prop) (st : HyState M) : Prop := ∀ l, S l → l ∉ st.cache.keys

theorem cycle_run (S : Str → Prop)
    (hS : ∀ l, S l → ∀ pkg, ∃ p l', Demands (P.script l pkg) p ∧ At P p l' ∧ S l') (fuel : Nat) :
    (∀ st p ref r, NoneCached S st → importScript P fuel st p ref = some r →
      NoneCached S r.2 ∧ ∀ l, At P p l → S l → ∀ m, r.1 ≠ .ok m) ∧
    (∀ st ref t r, NoneCached S st → runScript P fuel st ref t = some r →
      NoneCached S r.2 ∧ ((∃ p l, Demands t p ∧ At P p l ∧ S l) → ∀ m, r.1 ≠ .ok m)) := by
  induction fuel with
  | zero => constructor <;> · intros; simp_all [importScript, runScript]
  | succ n ih =>
    constructor
    · intro st p ref r hs h
      simp only [importScript] at h
      split at h
      · rename_i e he
        simp only [Option.some.injEq] at h
        subst h
        exact ⟨hs, by simp⟩
      · rename_i he
        simp only [Option.some.injEq] at h
        subst h
        refine ⟨hs, ?_⟩
        intro l hl
        rw [hyLocate_at hl] at he
        split at he <;> simp at he
      · rename_i loc he
        simp only [Option.some.injEq] at h
        subst h
        refine ⟨hs, ?_⟩
        intro l hl hSl
        rw [hyLocate_at hl, if_neg (hs l hSl)] at he
        simp at he
      · rename_i loc py he
        cases hr : runScript P n st { root := P.folder loc, package := packageOf py } (P.script loc (packageOf py)) with
        | none => rw [hr] at h; simp [keepModule] at h
        | some r' =>
          rw [hr] at h
          have h2 := (ih.2 _ _ _ _ hs hr)
          obtain ⟨r1, st'⟩ := r'
          cases r1 with
          | error e =>
            simp only [keepModule, Option.some.injEq] at h
            subst h
            exact ⟨h2.1, by simp⟩
          | ok m =>
            simp only [keepModule, Option.some.injEq] at h
            subst h
            have hn : ¬ S loc := fun hSl => h2.2 (hS loc hSl _) m rfl
            refine ⟨?_, ?_⟩
            · intro l hl
              simp only [HyState.store]
              rw [Dict.keys_set]
              split
              · exact h2.1 l hl
              · simp only [List.mem_append, List.mem_singleton, not_or]
                exact ⟨h2.1 l hl, fun e => hn (e ▸ hl)⟩
            · intro l hl hSl
              rw [hyLocate_at hl, if_neg (hs l hSl)] at he
              simp only [Except.ok.injEq, HyChoice.read.injEq] at he
              exact (hn (he.1 ▸ hSl)).elim
    · intro st ref t r hs h
      cases t with
      | done r' =>
        have : ∀ p, ¬ Demands (Script.done r' : Script M E) p := fun p hd => by cases hd
        cases r' with
        | error e =>
          simp only [runScript, Option.some.injEq] at h
          subst h
          exact ⟨hs, by simp⟩
        | ok m =>
          simp only [runScript, Option.some.injEq] at h
          subst h
          exact ⟨hs, fun ⟨p, _, hd, _⟩ => (this p hd).elim⟩
      | request q k =>
        simp only [runScript] at h
        split at h
        · simp at h
        · rename_i e st' hi
          simp only [Option.some.injEq] at h
          subst h
          exact ⟨(ih.1 _ _ _ _ hs hi).1, by simp⟩
        · rename_i m st' hi
          have h1 := ih.1 _ _ _ _ hs hi
          have h2 := ih.2 _ _ _ _ h1.1 h
          refine ⟨h2.1, ?_⟩
          rintro ⟨p, l, hd, hl, hSl⟩
          cases hd with
          | here => exact (h1.2 l hl hSl m rfl).elim
          | later hd => exact h2.2 ⟨p, l, hd m, hl, hSl⟩

end

end Verif
