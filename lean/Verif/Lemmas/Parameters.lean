import Verif.Lemmas.Templates
import Verif.Spec.Components

/-! Parameters of components: they are read, declared, and receive their values. -/

namespace Verif
open Py Spec Ctx

section
variable {P X W I : Type} (E : Env P X W) (D : PyData E.ops E.fuel) (σ : StateId) (tagOf : P → TagObj) (void : Str → Option Bool)

/-- The definition of a parameter, with its default value. -/
def ParamMade (b : List (Str × SlotInfo)) (Γ : Str → Prop) (p : Str × Option Given) (a : AttrDef) : Prop :=
  a.name = p.1 ∧ ∀ g, p.2 = some g → ∃ e, a.default = some e ∧
    ∀ ρ (A : Store P W) d, Situ E D σ tagOf void b Γ ρ A → g.value ρ = some d → ∃ v, D.rep v d ∧ Evals (eval E σ e) A v A

variable {E D σ tagOf void} {M : Marks} {names : Str → Option Char} {Γ : Str → Prop}

theorem params_read (hm : ∀ c, isMark M c = true → 0x2768 ≤ c.toNat) {b : List (Str × SlotInfo)} (hb : Binds Γ void b)
    (params : List (Str × Option Given)) (hn : ∀ p ∈ params, VarName p.1) (hd : ∀ p ∈ params, ∀ g, p.2 = some g → GivenOk M Γ g) :
    ∃ as as', Formals M names (params.flatMap paramSource) as ∧ as.map AttrDef.name = params.map Prod.fst ∧
      analyseDefaults (I := I) b as = .ok as' ∧ All₂ (ParamMade E D σ tagOf void b Γ) params as' := by
  induction params with
  | nil => exact ⟨[], [], .nil, rfl, rfl, .nil⟩
  | cons p params ih =>
    obtain ⟨x, g⟩ := p
    obtain ⟨as, as', h1, h2, h3, h4⟩ := ih (fun p hp => hn p (List.mem_cons_of_mem _ hp)) (fun p hp => hd p (List.mem_cons_of_mem _ hp))
    have hx := (hn (x, g) (List.mem_cons_self ..)).toName
    cases g with
    | none =>
      refine ⟨⟨x, none, none⟩ :: as, ⟨x, none, none⟩ :: as', ?_, by simp [h2], ?_, .cons ⟨rfl, by simp⟩ h4⟩
      · have := Formals.name (M := M) (names := names) (w := [' ']) (by simp [Blanks]) (by simp) hx h1
        simpa [paramSource] using this
      · simp only [analyseDefaults, analyseExprOpt, h3]; rfl
    | some g =>
      have hg := hd (x, some g) (List.mem_cons_self ..) g rfl
      obtain ⟨e, e', g1, g2, g3⟩ := given_reads (M := M) (names := names) (E := E) (D := D) (σ := σ) (tagOf := tagOf) (I := I) hm hg hb
      refine ⟨⟨x, some (.root none e), none⟩ :: as, ⟨x, some e', none⟩ :: as', ?_, by simp [h2], ?_, .cons ⟨rfl, ?_⟩ h4⟩
      · have := Formals.default (M := M) (names := names) (w := [' ']) (w1 := []) (w2 := []) (by simp [Blanks]) (by simp) hx
          (by simp [Blanks]) (by simp [Blanks]) (.factor g1 (given_head hg).1 (given_head hg).2) h1
        simpa [paramSource] using this
      · simp only [analyseDefaults, analyseExprOpt, g2, h3]; rfl
      · rintro _ ⟨⟩
        exact ⟨e', rfl, g3⟩

/-! ### Declarations -/

/-- A declared parameter: it has a slot. -/
def Declares (L : Setting P W) (c' : Ctx) (a a' : AttrDef) : Prop :=
  ∃ s : SlotInfo, a' = { a with slot := some s.id } ∧ lookupBind c'.binds ('$' :: a.name) = some s ∧ Writable L c' s

theorem All₂.mono {α β : Type} {R S : α → β → Prop} {as : List α} {bs : List β} (h : All₂ R as bs) (hs : ∀ a ∈ as, ∀ b, R a b → S a b) :
    All₂ S as bs := by
  induction h with
  | nil => exact .nil
  | cons h1 _ ih => exact .cons (hs _ (List.mem_cons_self ..) _ h1) (ih (fun a ha => hs a (List.mem_cons_of_mem _ ha)))

theorem All₂.mem {α β : Type} {R : α → β → Prop} {as : List α} {bs : List β} (h : All₂ R as bs) {b : β} (hb : b ∈ bs) : ∃ a ∈ as, R a b := by
  induction h with
  | nil => simp at hb
  | cons h1 _ ih =>
    rcases List.mem_cons.1 hb with rfl | hb
    · exact ⟨_, List.mem_cons_self .., h1⟩
    · obtain ⟨a, ha, hr⟩ := ih hb
      exact ⟨a, List.mem_cons_of_mem _ ha, hr⟩

theorem All₂.mem' {α β : Type} {R : α → β → Prop} {as : List α} {bs : List β} (h : All₂ R as bs) {a : α} (ha : a ∈ as) : ∃ b ∈ bs, R a b := by
  induction h with
  | nil => simp at ha
  | cons h1 _ ih =>
    rcases List.mem_cons.1 ha with rfl | ha
    · exact ⟨_, List.mem_cons_self .., h1⟩
    · obtain ⟨b, hb, hr⟩ := ih ha
      exact ⟨b, List.mem_cons_of_mem _ hb, hr⟩

theorem Writable.to {L : Setting P W} {c c' : Ctx} {s : SlotInfo} (h : Writable L c s) (hn : c.next ≤ c'.next) : Writable L c' s :=
  ⟨h.pub, h.own, Nat.lt_of_lt_of_le h.made hn, h.free⟩

theorem declareAttrs_new {L : Setting P W} (hbv : L.bv = none) (hh : ∀ n, L.hyper n = none) (as : List AttrDef) :
    ∀ c : Ctx, c.Good L → (∀ a ∈ as, Spec.Name a.name) → (as.map AttrDef.name).Nodup →
    ∃ as' c', (declareAttrs as c : Except (AErr I) _) = .ok (as', c') ∧ c.Step c' ∧ c'.Good L ∧ All₂ (Declares L c') as as' ∧
      ∀ sym, (∀ a ∈ as, sym ≠ '$' :: a.name) → lookupBind c'.binds sym = lookupBind c.binds sym := by
  induction as with
  | nil => exact fun c hg _ _ => ⟨[], c, rfl, .refl c, hg, .nil, fun _ _ => rfl⟩
  | cons a as ih =>
    intro c hg hn hd
    rw [List.map_cons, List.nodup_cons] at hd
    obtain ⟨s, c1, h1, h2, h3, h4, h5, h6, h7⟩ := declare_new (I := I) (Γ := fun _ => False) (void := fun _ => none) hg (validVar (hn a (List.mem_cons_self ..)))
      (by rintro sym ((⟨y, hy, rfl⟩ | ⟨n, b, hb, rfl⟩) | ⟨n, b, hb, rfl⟩ | ⟨b, hb, rfl⟩)
          · exact hy.elim
          · cases hb
          · rw [hh] at hb; cases hb
          · rw [hbv] at hb; cases hb)
    obtain ⟨as', c2, g1, g2, g3, g4, g5⟩ := ih c1 h2.good (fun x hx => hn x (List.mem_cons_of_mem _ hx)) hd.2
    refine ⟨{ a with slot := some s.id } :: as', c2, ?_, h2.step.trans g2, g3, .cons ⟨s, rfl, ?_, h4.to g2.next⟩ g4, fun sym hs => ?_⟩
    · rw [declareAttrs, h1]
      show (declareAttrs as c1 >>= _) = _
      rw [g1]; rfl
    · rw [g5 _ (fun x hx he => hd.1 ?_), h3]
      simp only [List.cons.injEq, true_and] at he
      rw [he]
      exact List.mem_map_of_mem hx
    · rw [g5 sym (fun x hx => hs x (List.mem_cons_of_mem _ hx)), h6]
      have hne : '$' :: a.name ≠ sym := (hs a (List.mem_cons_self ..)).symm
      rw [lookup_push, if_neg hne, lookup_push, if_neg hne]

/-! ### Values -/

/-- Arguments stand for data. -/
def ArgsGiven {E : Env P X W} (D : PyData E.ops E.fuel) (vs : List (Str × Data)) (kw : Dict Str (Val P)) (x : Str) : Prop :=
  (vs.lookup x = none → Dict.get? kw x = none) ∧ ∀ d, vs.lookup x = some d → ∃ v, Dict.get? kw x = some v ∧ D.rep v d

theorem ArgsRep.given {vs : List (Str × Data)} {kw : Dict Str (Val P)} (h : ArgsRep D vs kw) (x : Str) : ArgsGiven D vs kw x := by
  induction h with
  | nil => exact ⟨fun _ => rfl, by simp⟩
  | cons h1 _ ih =>
    rename_i a b as bs _
    obtain ⟨y, d⟩ := a
    obtain ⟨y', v⟩ := b
    obtain ⟨rfl, h1⟩ := h1
    unfold ArgsGiven
    simp only [List.lookup_cons, Dict.get?]
    by_cases hx : x = y'
    · subst hx
      simp only [BEq.rfl, if_true]
      exact ⟨by simp, fun d' hd' => ⟨v, rfl, by cases hd'; exact h1⟩⟩
    · have : (x == y') = false := by simpa using hx
      rw [this, if_neg (Ne.symm hx)]
      exact ih

theorem ArgsRep.keys {vs : List (Str × Data)} {kw : Dict Str (Val P)} (h : ArgsRep D vs kw) : Dict.keys kw = vs.map Prod.fst := by
  induction h with
  | nil => rfl
  | cons h1 _ ih =>
    simp only [Dict.keys, List.map_cons] at ih ⊢
    rw [h1.1, ih]

theorem bindPositional_nil (as : List AttrDef) (kw : Dict Str (Val P)) : bindPositional as [] kw = some kw := by
  cases as <;> rfl

theorem bindDefaults_evals {b : List (Str × SlotInfo)} {ρ : Vars} {A : Store P W} (hS : Situ E D σ tagOf void b Γ ρ A) {vs : List (Str × Data)}
    {params : List (Str × Option Given)} {as : List AttrDef} (h : All₂ (ParamMade E D σ tagOf void b Γ) params as) :
    ∀ kw : Dict Str (Val P), (params.map Prod.fst).Nodup → (∀ p ∈ params, ArgsGiven D vs kw p.1) → (∀ p ∈ params, (paramValue ρ vs p).isSome = true) →
    (Dict.keys kw).Nodup →
    ∃ kw2, Evals (bindDefaults E σ as kw) A kw2 A ∧ (∀ x, x ∉ params.map Prod.fst → Dict.get? kw2 x = Dict.get? kw x) ∧
      (∀ p ∈ params, ∀ d, paramValue ρ vs p = some d → ∃ v, Dict.get? kw2 p.1 = some v ∧ D.rep v d) ∧
      (∀ x ∈ Dict.keys kw2, x ∈ Dict.keys kw ∨ x ∈ params.map Prod.fst) ∧ (Dict.keys kw2).Nodup := by
  induction h with
  | nil => exact fun kw _ _ _ hk => ⟨kw, Evals.pure _ _, fun _ _ => rfl, by simp, fun x hx => .inl hx, hk⟩
  | cons h1 h2 ih =>
    rename_i p a params as
    intro kw hd hg hv hk
    rw [List.map_cons, List.nodup_cons] at hd
    obtain ⟨h1n, h1d⟩ := h1
    have hgp := hg p (List.mem_cons_self ..)
    have hvp := hv p (List.mem_cons_self ..)
    rw [bindDefaults, h1n]
    cases hl : vs.lookup p.1 with
    | some d =>
      obtain ⟨v, k1, k2⟩ := hgp.2 d hl
      rw [k1]
      simp only [Option.isSome_some, if_true]
      obtain ⟨kw2, g1, g2, g3, g4, g5⟩ := ih kw hd.2 (fun p hp => hg p (List.mem_cons_of_mem _ hp)) (fun p hp => hv p (List.mem_cons_of_mem _ hp)) hk
      refine ⟨kw2, g1, fun x hx => g2 x (fun h => hx (List.mem_cons_of_mem _ h)), fun q hq d' hd' => ?_,
        fun x hx => (g4 x hx).imp_right (List.mem_cons_of_mem _), g5⟩
      rcases List.mem_cons.1 hq with rfl | hq
      · simp only [paramValue, hl, Option.some.injEq] at hd'
        subst hd'
        exact ⟨v, by rw [g2 _ hd.1, k1], k2⟩
      · exact g3 q hq d' hd'
    | none =>
      rw [hgp.1 hl]
      simp only [Option.isSome_none, Bool.false_eq_true, if_false]
      simp only [paramValue, hl] at hvp
      obtain ⟨d, hd'⟩ := Option.isSome_iff_exists.1 hvp
      obtain ⟨g, hg1, hg2⟩ := Option.bind_eq_some_iff.1 hd'
      obtain ⟨e, he1, he2⟩ := h1d g hg1
      obtain ⟨v, k1, k2⟩ := he2 ρ A d hS hg2
      rw [he1]
      have hkn : p.1 ∉ Dict.keys kw := (Dict.get?_eq_none_iff _ _).1 (hgp.1 hl)
      have hne : ∀ q ∈ params, p.1 ≠ q.1 := fun q hq he => hd.1 (by rw [he]; exact List.mem_map_of_mem hq)
      obtain ⟨kw2, g1, g2, g3, g4, g5⟩ := ih (Dict.set kw p.1 v) hd.2 (fun q hq => by
          have := hg q (List.mem_cons_of_mem _ hq)
          unfold ArgsGiven at this ⊢
          rw [Dict.get?_set, if_neg (hne q hq)]
          exact this) (fun p hp => hv p (List.mem_cons_of_mem _ hp)) (Dict.nodup_set hk p.1 v)
      refine ⟨kw2, Evals.bind k2 g1, fun x hx => ?_, fun q hq d' hd'' => ?_, fun x hx => ?_, g5⟩
      · rw [List.map_cons, List.mem_cons, not_or] at hx
        rw [g2 x hx.2, Dict.get?_set, if_neg (Ne.symm hx.1)]
      · rcases List.mem_cons.1 hq with rfl | hq
        · simp only [paramValue, hl] at hd''
          rw [hd'] at hd''
          cases hd''
          exact ⟨v, by rw [g2 _ hd.1, Dict.get?_set, if_pos rfl], k1⟩
        · exact g3 q hq d' hd''
      · rw [Dict.set_fresh _ _ _ hkn] at g4
        rcases g4 x hx with h | h
        · simp only [Dict.keys, List.map_append, List.map_cons, List.map_nil, List.mem_append, List.mem_singleton] at h
          rcases h with h | h
          · exact .inl (by simpa [Dict.keys] using h)
          · exact .inr (by simp [h])
        · exact .inr (List.mem_cons_of_mem _ h)

theorem attr_unique {as : List AttrDef} (hn : (as.map AttrDef.name).Nodup) {a a' : AttrDef} (ha : a ∈ as) (ha' : a' ∈ as) (he : a'.name = a.name) :
    a' = a := by
  induction as with
  | nil => simp at ha
  | cons b as ih =>
    rw [List.map_cons, List.nodup_cons] at hn
    have hm : ∀ {x : AttrDef}, x ∈ as → x.name ∈ as.map AttrDef.name := fun h => List.mem_map_of_mem h
    rcases List.mem_cons.1 ha with h | h <;> rcases List.mem_cons.1 ha' with h' | h'
    · rw [h, h']
    · exact absurd (by rw [← h, ← he]; exact hm h') hn.1
    · exact absurd (by rw [← h', he]; exact hm h) hn.1
    · exact ih hn.2 h h'

theorem assignAttrs_evals {as : List AttrDef} (hinj : ∀ a ∈ as, ∀ a' ∈ as, ∀ s, a.slot = some s → a'.slot = some s → a.name = a'.name) :
    ∀ (kw : Dict Str (Val P)) (A : Store P W), (Dict.keys kw).Nodup → (∀ x ∈ Dict.keys kw, ∃ a ∈ as, ∃ s, a.name = x ∧ a.slot = some s) →
    (as.map AttrDef.name).Nodup →
    ∃ A', Evals (assignAttrs σ as kw : Comp P X W Unit) A () A' ∧ A'.ind σ = A.ind σ ∧ A'.world = A.world ∧
      (∀ a ∈ as, ∀ s v, a.slot = some s → Dict.get? kw a.name = some v → (A'.states σ).values s = some v) ∧
      ∀ s, (∀ a ∈ as, a.name ∈ Dict.keys kw → a.slot ≠ some s) → (A'.states σ).values s = (A.states σ).values s := by
  intro kw
  induction kw with
  | nil => exact fun A _ _ _ => ⟨A, Evals.pure _ _, rfl, rfl, by simp [Dict.get?], fun _ _ => rfl⟩
  | cons q kw ih =>
    obtain ⟨x, v⟩ := q
    intro A hd hs hn
    simp only [Dict.keys, List.map_cons, List.nodup_cons] at hd
    obtain ⟨a, ha, s, hax, hsl⟩ := hs x (by simp [Dict.keys])
    obtain ⟨A', h1, h2, h3, h4, h5⟩ := ih (A.setVar σ s v) hd.2 (fun y hy => hs y (by simp [Dict.keys] at hy ⊢; exact .inr hy)) hn
    have hf : as.find? (fun a => a.name = x) = some a := by
      cases hf : as.find? (fun a => a.name = x) with
      | none => exact absurd (List.find?_eq_none.1 hf a ha) (by simp [hax])
      | some a' =>
        have e1 := List.find?_some hf
        have e2 := List.mem_of_find?_eq_some hf
        have : a' = a := attr_unique hn ha e2 (by rw [hax]; simpa using e1)
        rw [this]
    refine ⟨A', ?_, h2.trans (A.setVar_ind s v), h3, fun a' ha' s' v' hs' hg => ?_, fun s' hs' => ?_⟩
    · rw [assignAttrs, hf]
      simp only [assignAttr, hsl]
      exact Evals.bind (setSlot_evals A s v) h1
    · simp only [Dict.get?] at hg
      split at hg
      · rename_i he
        cases hg
        have hss : s' = s := by
          have : a' = a := attr_unique hn ha ha' (by rw [hax]; exact he.symm)
          rw [this, hsl] at hs'
          exact (Option.some.inj hs').symm
        subst hss
        rw [h5, Store.setVar_value, if_pos rfl]
        intro a2 ha2 hk2 hsl2
        apply hd.1
        rw [hinj a ha a2 ha2 s' hsl hsl2 |>.symm, hax] at hk2
        exact hk2
      · exact h4 a' ha' s' v' hs' hg
    · rw [h5 s' (fun a2 ha2 hk2 => hs' a2 ha2 (by simp [Dict.keys] at hk2 ⊢; exact .inr hk2)), Store.setVar_value, if_neg]
      rintro rfl
      exact hs' a ha (by simp [Dict.keys, hax]) hsl

end
end Verif
