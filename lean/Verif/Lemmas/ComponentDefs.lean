import Verif.Lemmas.Parameters
import Verif.Props.Scripts

/-! Definitions of components: they are read, analysed, and expand to what the component stands for. -/

namespace Verif
open Py Spec Ctx

section
variable {P X W I : Type}

/-- The same slots, without names in use. -/
def Setting.bare (L : Setting P W) : Setting P W := { L with bv := none, hyper := fun _ => none }

theorem Ctx.Good.bare {L : Setting P W} {c : Ctx} (h : c.Good L) : c.Good L.bare :=
  ⟨h.made, h.own, h.pub, h.old, h.fixed, h.low, h.inner, h.reg⟩

theorem Ctx.Good.unbare {L : Setting P W} {c : Ctx} (h : c.Good L.bare) : c.Good L :=
  ⟨h.made, h.own, h.pub, h.old, h.fixed, h.low, h.inner, h.reg⟩

theorem Writable.unbare {L : Setting P W} {c : Ctx} {s : SlotInfo} (h : Writable L.bare c s) : Writable L c s := ⟨h.pub, h.own, h.made, h.free⟩

/-- The symbols of the script that components may use. -/
def TopView (L : Setting P W) (Γ : Str → Prop) (void : Str → Option Bool) (sym : Str) : Prop :=
  Vis Γ void sym ∨ ∃ n h, L.hyper n = some h ∧ sym = '%' :: n

/-! ### Heads -/

/-- How a body is declared. -/
def bodyAttr (b : Option Str) : Option AttrDef := b.map (fun b => ⟨b, none, none⟩)

variable (E : Env P X W) (D : PyData E.ops E.fuel) (σ : StateId) (tagOf : P → TagObj) (strOf : Val P → Str)
  (ext : Nat → Except RenderErr Str → List AttrVal → List (Str × AttrVal) → Except RenderErr Str) (void : Str → Option Bool)
  (src : Source P I) (L : Setting P W) (M : Marks) (names : Str → Option Char)

/-- The head of a definition is read, and parameters have slots. -/
structure HeadMade (Γ : Str → Prop) (d : Component) (c1 c2 : Ctx) (as0 : List AttrDef) (ba as : List AttrDef) : Prop where
  formals : Formals M names (d.params.flatMap paramSource) as0
  formalNames : as0.map AttrDef.name = d.params.map Prod.fst
  analysed : ∃ asA bb cc, analyseDefaults (I := I) c1.binds (bodyAttr d.body).toList = .ok bb ∧ analyseDefaults (I := I) c1.binds as0 = .ok asA ∧
    declareAttrs (I := I) bb c1 = .ok (ba, cc) ∧ declareAttrs (I := I) asA cc = .ok (as, c2)
  step : c1.Step c2
  good : c2.Good L
  frame : ∀ sym, (∀ y, sym = '$' :: y → y ∉ d.params.map Prod.fst ∧ d.body ≠ some y) → lookupBind c2.binds sym = lookupBind c1.binds sym
  params : All₂ (ParamMade E D σ tagOf void c1.binds Γ) d.params as
  slots : All₂ (fun p (a : AttrDef) => ∃ s : SlotInfo, a.slot = some s.id ∧ lookupBind c2.binds ('$' :: p.1) = some s ∧ Writable L c2 s) d.params as
  body : ∀ b, d.body = some b → ∃ s : SlotInfo, ba.head? = some ⟨b, none, some s.id⟩ ∧ lookupBind c2.binds ('$' :: b) = some s ∧ Writable L c2 s
  noBody : d.body = none → ba.head? = none

variable {E D σ tagOf strOf ext void src L M names} {Γ : Str → Prop} {ρ : Vars}

theorem All₂.and {α β : Type} {R S : α → β → Prop} {as : List α} {bs : List β} (h : All₂ R as bs) (h' : All₂ S as bs) :
    All₂ (fun a b => R a b ∧ S a b) as bs := by
  induction h with
  | nil => exact .nil
  | cons h1 _ ih => cases h' with | cons h2 h3 => exact .cons ⟨h1, h2⟩ (ih h3)

theorem ParamMade.slot {b : List (Str × SlotInfo)} {p : Str × Option Given} {a a' : AttrDef} (h : ParamMade E D σ tagOf void b Γ p a)
    (h1 : a'.name = a.name) (h2 : a'.default = a.default) : ParamMade E D σ tagOf void b Γ p a' := by
  unfold ParamMade at h ⊢
  rw [h1, h2]; exact h

theorem made_names {b : List (Str × SlotInfo)} {params : List (Str × Option Given)} {as : List AttrDef}
    (h : All₂ (ParamMade E D σ tagOf void b Γ) params as) : as.map AttrDef.name = params.map Prod.fst := by
  induction h with
  | nil => rfl
  | cons k _ ih => simp [k.1, ih]

theorem nodup_fst {α β : Type} {l : List (α × β)} (h : (l.map Prod.fst).Nodup) {p q : α × β} (hp : p ∈ l) (hq : q ∈ l) (e : p.1 = q.1) : p = q := by
  induction l with
  | nil => simp at hp
  | cons a l ih =>
    rw [List.map_cons, List.nodup_cons] at h
    have hm : ∀ {x : α × β}, x ∈ l → x.1 ∈ l.map Prod.fst := fun h => List.mem_map_of_mem h
    rcases List.mem_cons.1 hp with h1 | h1 <;> rcases List.mem_cons.1 hq with h2 | h2
    · rw [h1, h2]
    · exact absurd (by rw [← h1, e]; exact hm h2) h.1
    · exact absurd (by rw [← h2, ← e]; exact hm h1) h.1
    · exact ih h.2 h1 h2

theorem declared_params {b : List (Str × SlotInfo)} {c' : Ctx} {params : List (Str × Option Given)} {as as' : List AttrDef}
    (h : All₂ (ParamMade E D σ tagOf void b Γ) params as) (h' : All₂ (Declares L c') as as') :
    All₂ (ParamMade E D σ tagOf void b Γ) params as' ∧
      All₂ (fun p (a : AttrDef) => ∃ s : SlotInfo, a.slot = some s.id ∧ lookupBind c'.binds ('$' :: p.1) = some s ∧ Writable L c' s) params as' := by
  induction h generalizing as' with
  | nil => cases h'; exact ⟨.nil, .nil⟩
  | cons h1 _ ih =>
    cases h' with
    | cons h2 h3 =>
      obtain ⟨s, rfl, hl, hw⟩ := h2
      obtain ⟨i1, i2⟩ := ih h3
      exact ⟨.cons (h1.slot rfl rfl) i1, .cons ⟨s, rfl, by rw [← h1.1]; exact hl, hw⟩ i2⟩

theorem head_made (hm : ∀ c, isMark M c = true → 0x2768 ≤ c.toNat) {d : Component} {sigs : Sigs} (hd : ComponentOk M void sigs Γ d) {c1 : Ctx} (hg : c1.Good L)
    (hb : Binds Γ void c1.binds) : ∃ c2 as0 ba as, HeadMade (I := I) E D σ tagOf void L M names Γ d c1 c2 as0 ba as := by
  obtain ⟨as0, asA, h1, h2, h3, h4⟩ := params_read (E := E) (D := D) (σ := σ) (tagOf := tagOf) (I := I) (names := names) hm hb d.params
    (fun p hp => (hd.params p hp).1) hd.defaults
  have hnA : asA.map AttrDef.name = d.params.map Prod.fst := by
    exact made_names h4
  have hdist := hd.distinct
  rw [List.nodup_append] at hdist
  have hbb : analyseDefaults (I := I) c1.binds (bodyAttr d.body).toList = .ok (bodyAttr d.body).toList := by
    cases d.body <;> rfl
  obtain ⟨ba, cc, g1, g2, g3, g4, g5⟩ := declareAttrs_new (I := I) (L := L.bare) rfl (fun _ => rfl) (bodyAttr d.body).toList c1 hg.bare
    (by intro a ha
        cases hbd : d.body with
        | none => rw [hbd] at ha; simp [bodyAttr] at ha
        | some b => rw [hbd] at ha; simp [bodyAttr] at ha; rw [ha]; exact (hd.body b hbd).toName)
    (by cases d.body <;> simp [bodyAttr])
  obtain ⟨as, c2, k1, k2, k3, k4, k5⟩ := declareAttrs_new (I := I) (L := L.bare) rfl (fun _ => rfl) asA cc g3
    (by intro a ha
        have : a.name ∈ d.params.map Prod.fst := by rw [← hnA]; exact List.mem_map_of_mem ha
        obtain ⟨p, hp, he⟩ := List.mem_map.1 this
        rw [← he]; exact (hd.params p hp).1.toName)
    (by rw [hnA]; exact hdist.2.1)
  obtain ⟨p1, p2⟩ := declared_params h4 k4
  refine ⟨c2, as0, ba, as, h1, h2, ⟨asA, _, cc, hbb, h3, g1, k1⟩, g2.trans k2, k3.unbare, fun sym hs => ?_, p1, ?_, fun b hbd => ?_, fun hbd => ?_⟩
  · rw [k5 sym, g5 sym]
    · intro a ha he
      cases hbd : d.body with
      | none => rw [hbd] at ha; simp [bodyAttr] at ha
      | some b =>
        rw [hbd] at ha
        simp only [bodyAttr, Option.map_some, Option.toList_some, List.mem_singleton] at ha
        exact (hs a.name he).2 (by rw [hbd, ha])
    · intro a ha he
      exact (hs a.name he).1 (by rw [← hnA]; exact List.mem_map_of_mem ha)
  · exact p2.mono (fun p _ a ⟨s, a1, a2, a3⟩ => ⟨s, a1, a2, a3.unbare⟩)
  · rw [hbd] at g4
    simp only [bodyAttr, Option.map_some, Option.toList_some] at g4
    cases g4 with
    | cons a1 a2 =>
      cases a2
      obtain ⟨s, rfl, b1, b2⟩ := a1
      refine ⟨s, rfl, ?_, (b2.to k2.next).unbare⟩
      rw [k5 _ (fun a ha he => ?_), b1]
      simp only [List.cons.injEq, true_and] at he
      refine hdist.2.2 b (by simp [hbd]) a.name ?_ he
      rw [← hnA]
      exact List.mem_map_of_mem ha
  · rw [hbd] at g4
    simp only [bodyAttr, Option.map_none, Option.toList_none] at g4
    cases g4
    rfl

/-! ### Arguments -/

theorem All₂.pick {α β : Type} {R : α → β → Prop} {as : List α} {bs : List β} (h : All₂ R as bs) {a : α} (ha : a ∈ as) : ∃ b ∈ bs, R a b := h.mem' ha

/-- The arguments are assigned. -/
theorem append_evals (hL : L.Sound σ) {d : Component} {sigs : Sigs} (hd : ComponentOk M void sigs Γ d) {c1 c2 : Ctx} {as0 ba as : List AttrDef}
    (h : HeadMade (I := I) E D σ tagOf void L M names Γ d c1 c2 as0 ba as) (hbv : L.bv = d.body)
    (hfix : ∀ sym sl, TopView L Γ void sym → lookupBind c1.binds sym = some sl → L.fix sl.id) {A : Store P W}
    (hS : Situ E D σ tagOf void c1.binds Γ ρ A)
    (hY : ∀ n id sig f, L.hyper n = some (id, sig, f) → ∃ sl, lookupBind c1.binds ('%' :: n) = some sl ∧ (A.states σ).values sl.id = some (.hyper (.defn id)))
    (hB : L.base A) {vs : List (Str × Data)} {kw : Dict Str (Val P)} (hkw : ArgsRep D vs kw) (hvs : (vs.map Prod.fst).Nodup)
    (hin : ∀ a ∈ vs, a.1 ∈ d.params.map Prod.fst) (hval : ∀ p ∈ d.params, (paramValue ρ vs p).isSome = true) (b : Stmt P) (rs : List Ref)
    (hrs : d.body = none → rs = []) :
    ∃ da A', Evals (appendAttrs E σ ⟨ba.head?, as, b⟩ (.dom rs) [] kw) A da A' ∧ A'.ind σ = A.ind σ ∧ Kept D A A' ∧
      Scene E D σ tagOf void L c2.binds (d.scope Γ) (d.vars ρ vs) rs A' ∧ Quiet σ L c2.next A A' := by
  have hnames : as.map AttrDef.name = d.params.map Prod.fst := by
    exact made_names h.params
  have hdist := hd.distinct
  rw [List.nodup_append] at hdist
  have hkeys := hkw.keys
  have hkmem : ∀ x ∈ Dict.keys kw, x ∈ d.params.map Prod.fst := by
    intro x hx
    rw [hkeys] at hx
    obtain ⟨a, ha, rfl⟩ := List.mem_map.1 hx
    exact hin a ha
  obtain ⟨kw2, g1, g2, g3, g4, g5⟩ := bindDefaults_evals hS h.params kw hdist.2.1 (fun p _ => hkw.given p.1) hval (by rw [hkeys]; exact hvs)
  have hall := h.params.and h.slots
  have hinj : ∀ a ∈ as, ∀ a' ∈ as, ∀ s, a.slot = some s → a'.slot = some s → a.name = a'.name := by
    intro a ha a' ha' s hs hs'
    obtain ⟨p, hp, k1, sl, k2, k3, k4⟩ := hall.mem ha
    obtain ⟨p', hp', k1', sl', k2', k3', k4'⟩ := hall.mem ha'
    have e : sl.id = sl'.id := by
      rw [k2] at hs; rw [k2'] at hs'
      rw [Option.some.inj hs, Option.some.inj hs']
    have := h.good.own _ (lookupBind_mem k3) _ (lookupBind_mem k3') e
    rw [k1.1, k1'.1]
    simpa using this
  obtain ⟨A1, a1, a2, a3, a4, a5⟩ := assignAttrs_evals (X := X) (σ := σ) hinj kw2 A g5 (fun x hx => by
      have hx' : x ∈ d.params.map Prod.fst := (g4 x hx).elim (hkmem x) (fun h => h)
      obtain ⟨p, hp, rfl⟩ := List.mem_map.1 hx'
      obtain ⟨a, ha, k1, sl, k2, -, -⟩ := hall.mem' hp
      exact ⟨a, ha, sl.id, k1.1, k2⟩) (by rw [hnames]; exact hdist.2.1)
  -- the body
  obtain ⟨A2, b1, b2, b3, b4⟩ : ∃ A2, Evals (assignBody E σ ba.head? (.dom rs)) A1 () A2 ∧ A2.ind σ = A1.ind σ ∧ A2.world = A1.world ∧
      ((d.body = none ∧ A2 = A1) ∨ ∃ b s, d.body = some b ∧ lookupBind c2.binds ('$' :: b) = some s ∧ Writable L c2 s ∧ A2 = A1.setVar σ s.id (.dom rs)) := by
    cases hbd : d.body with
    | none =>
      refine ⟨A1, ?_, rfl, rfl, .inl ⟨rfl, rfl⟩⟩
      rw [h.noBody hbd, hrs hbd]
      exact Evals.pure _ _
    | some b =>
      obtain ⟨s, k1, k2, k3⟩ := h.body b hbd
      refine ⟨A1.setVar σ s.id (.dom rs), ?_, A1.setVar_ind _ _, rfl, .inr ⟨b, s, rfl, k2, k3, rfl⟩⟩
      rw [k1]
      exact setSlot_evals A1 s.id _
  have hval2 : ∀ sl, (d.body = none ∨ ∀ b s, d.body = some b → lookupBind c2.binds ('$' :: b) = some s → sl ≠ s.id) →
      (A2.states σ).values sl = (A1.states σ).values sl := by
    intro sl hsl
    rcases b4 with ⟨-, rfl⟩ | ⟨b, s, e1, e2, -, rfl⟩
    · rfl
    · rw [Store.setVar_value, if_neg]
      rcases hsl with h0 | h0
      · rw [e1] at h0; cases h0
      · exact h0 b s e1 e2
  have hsame : ∀ sl, ¬ (¬ L.priv sl ∧ L.lo ≤ sl ∧ sl < c2.next ∧ ¬ L.fix sl) → (A2.states σ).values sl = (A.states σ).values sl := by
    intro sl hsl
    have e1 : (A2.states σ).values sl = (A1.states σ).values sl := by
      rcases b4 with ⟨-, rfl⟩ | ⟨b, s, -, -, hw, rfl⟩
      · rfl
      · rw [Store.setVar_value, if_neg]
        rintro rfl
        exact hsl ⟨hw.pub, hw.own, hw.made, hw.free⟩
    rw [e1, a5]
    intro a ha _ hs
    obtain ⟨p, hp, k1, s, k2, k3, hw⟩ := hall.mem ha
    rw [k2] at hs
    cases hs
    exact hsl ⟨hw.pub, hw.own, hw.made, hw.free⟩
  have hfixed : ∀ sl, L.fix sl → (A2.states σ).values sl = (A.states σ).values sl := fun sl hf => hsame sl (fun k => k.2.2.2 hf)
  have htag : ∀ n, lookupBind c2.binds ('%' :: n) = lookupBind c1.binds ('%' :: n) := fun n => h.frame _ (fun y he => by simp at he)
  refine ⟨domAttrs ⟨ba.head?, as, b⟩ [] kw, A2, ?_, b2.trans a2, ?_, ⟨⟨fun y hy => ?_, fun n v hn => ?_⟩, fun n id sig f hn => ?_, fun v hv => ?_, ?_⟩, ?_⟩
  · unfold appendAttrs
    rw [if_neg (by simp), if_neg, if_neg]
    · simp only [bindPositional_nil]
      exact Evals.bind g1 (Evals.bind a1 (Evals.bind b1 (Evals.pure _ _)))
    · simp only [List.any_eq_true, Bool.not_eq_true', not_exists, not_and, Bool.not_eq_false]
      intro x hx
      have : x.1 ∈ as.map AttrDef.name := by
        rw [hnames]
        exact hkmem x.1 (List.mem_map_of_mem (f := Prod.fst) hx)
      obtain ⟨a, ha, he⟩ := List.mem_map.1 this
      unfold DefInfo.isAttr
      rw [Bool.or_eq_true]
      exact .inr (List.any_eq_true.2 ⟨a, ha, by simpa using he⟩)
    · cases hbd : d.body with
      | none => rw [h.noBody hbd]; simp
      | some b =>
        obtain ⟨s, k1, -, -⟩ := h.body b hbd
        rw [k1]
        have : Dict.get? kw b = none := by
          rw [Dict.get?_eq_none_iff]
          intro hk
          exact hdist.2.2 b (by simp [hbd]) b (hkmem b hk) rfl
        simp [this]
  · intro it l hp
    rw [b3, a3]; exact hp
  · -- variables
    obtain ⟨hy1, hy2⟩ := hy
    by_cases hyp : y ∈ d.params.map Prod.fst
    · obtain ⟨p, hp, rfl⟩ := List.mem_map.1 hyp
      obtain ⟨a, ha, k1, sl, k2, k3, k4⟩ := hall.mem' hp
      have hvp := hval p hp
      obtain ⟨x, hx⟩ := Option.isSome_iff_exists.1 hvp
      obtain ⟨v, v1, v2⟩ := g3 p hp x hx
      refine ⟨sl, v, x, k3, ?_, ?_, v2⟩
      · rw [hval2, a4 a ha sl.id v k2 (by rw [k1.1]; exact v1)]
        refine .inr (fun b s e1 e2 e3 => hy2 ?_)
        have := h.good.own _ (lookupBind_mem k3) _ (lookupBind_mem e2) e3
        simp only [List.cons.injEq, true_and] at this
        rw [e1, this]
      · have : d.params.find? (fun q => q.1 = p.1) = some p := by
          cases hf : d.params.find? (fun q => q.1 = p.1) with
          | none => exact absurd (List.find?_eq_none.1 hf p hp) (by simp)
          | some q =>
            have e1 := List.find?_some hf
            have e2 := List.mem_of_find?_eq_some hf
            rw [nodup_fst hdist.2.1 e2 hp (by simpa using e1)]
        unfold Component.vars
        rw [this]; exact hx
    · have hΓ := hy1.resolve_left hyp
      obtain ⟨sl, v, x, k1, k2, k3, k4⟩ := hS.vars y hΓ
      refine ⟨sl, v, x, ?_, ?_, ?_, k4⟩
      · rw [h.frame _ (fun z he => by simp only [List.cons.injEq, true_and] at he; rw [← he]; exact ⟨hyp, hy2⟩)]
        exact k1
      · rw [hfixed _ (hfix _ _ (.inl (.inl ⟨y, hΓ, rfl⟩)) k1)]
        exact k2
      · unfold Component.vars
        have : d.params.find? (fun q => q.1 = y) = none := by
          rw [List.find?_eq_none]
          intro q hq
          have : q.1 ≠ y := fun e => hyp (by rw [← e]; exact List.mem_map_of_mem hq)
          simpa using this
        rw [this]; exact k3
  · obtain ⟨sl, k1, k2⟩ := hS.tags n v hn
    refine ⟨sl, (htag n).trans k1, fun j => ?_⟩
    obtain ⟨p, k3, k4⟩ := k2 j
    exact ⟨p, (hfixed _ (hfix _ _ (.inl (.inr ⟨n, v, hn, rfl⟩)) k1)).trans k3, k4⟩
  · obtain ⟨sl, k1, k2⟩ := hY n id sig f hn
    exact ⟨sl, (htag n).trans k1, (hfixed _ (hfix _ _ (.inr ⟨n, _, hn, rfl⟩) k1)).trans k2⟩
  · rw [hbv] at hv
    rcases b4 with ⟨e, -⟩ | ⟨b, s, e1, e2, -, rfl⟩
    · rw [hv] at e; cases e
    · rw [hv] at e1
      cases e1
      exact ⟨s, e2, by rw [Store.setVar_value, if_pos rfl]⟩
  · exact hL.stable A A2 hB hfixed
  · intro sl h1 h2
    refine hsame sl (fun k => ?_)
    rcases h2 with h2 | h2
    · exact absurd k.2.1 (Nat.not_le.2 h2)
    · exact absurd k.2.2.1 (Nat.not_lt.2 h2)

/-! ### Expansion -/

theorem Makes.pre {H : Hand} {rs : List Ref} {Q : List Node → Prop} {c : Comp P X W (List Ref)} {A : Store P W} {Z : List Node → Store P W → Prop}
    (h : Makes tagOf strOf H c A Z) (hr : H.refs = rs) (hq : ∀ ns, Q ns → H.pre ns) : Makes tagOf strOf ⟨rs, Q⟩ c A Z := by
  intro Mm ns F hM h1 h2 h3
  subst hr
  exact h Mm ns F hM h1 h2 (hq ns h3)

theorem addIndent_nil (s : Str) : addIndent s [] = s := if_pos rfl

theorem shownAll_nil (es : List Entry) : shownAll [] es = es.flatMap Entry.full := by
  unfold shownAll
  congr 1
  funext e
  unfold Entry.shown
  split
  · exact addIndent_nil _
  · rfl

/-- The text of a component. -/
theorem component_text {es : List Entry} {cs : List Chunk} (h : Chunks es cs) :
    (es = [] → '\n' :: ([] : Str) = flat (componentLines cs)) ∧
    (∀ e es', es = e :: es' → '\n' :: shownAll [] ({ e with place := .level, outline := false } :: es'.map (fun e => { e with place := .level })) =
      flat (componentLines cs)) ∧ ∀ l ∈ componentLines cs, '\n' ∉ l := by
  have h' := h.opening
  have ho := h'.oneLine
  refine ⟨?_, ?_, ?_⟩
  · rintro rfl
    cases h
    rfl
  · rintro e es' rfl
    have h2 := h'.level.shown [] (by simp)
    rw [mapShift_nil] at h2
    have hne : chunkLines (opening cs) ≠ [] := by
      intro e0
      rw [e0] at h2
      simp [shownAll_nil, outlineFirst, Entry.full, flat] at h2
    have hc : componentLines cs = chunkLines (opening cs) := by
      unfold componentLines
      split
      · contradiction
      · rfl
    rw [hc, ← h2, shownAll_nil, shownAll_nil]
    simp [outlineFirst, Entry.full]
  · intro l hl
    unfold componentLines at hl
    split at hl
    · simp only [List.mem_singleton] at hl
      rw [hl]; simp
    · exact ho l hl

variable (E D σ tagOf strOf ext)

/-- The expansion of a definition outputs what the component stands for. -/
def Expands (base : Store P W → Prop) (priv : Slot → Prop) (id : DefId) (info : DefInfo P) (sig : Sig)
    (f : List (Str × Data) → List Chunk → Option (List Chunk)) : Prop :=
  ∀ (A : Store P W) vs kw cb cs, base A → (A.ind σ).take 1 = ['\n'] → ArgsRep D vs kw → (vs.map Prod.fst).Nodup →
    (∀ a ∈ vs, a.1 ∈ sig.params.map Prod.fst) → f vs cb = some cs →
    Transforms tagOf strOf (fun rs => expandDef E id info (.dom rs) [] kw σ) A (fun ns => Showing ext cb ns ∧ (sig.body = false → ns = []))
      (fun ns B => (∃ t, Dens ext (A.ind σ) ns [⟨false, .level, t⟩] ∧ Chunks [⟨true, .level, t⟩] cs) ∧ B.ind σ = A.ind σ ∧ Kept D A B ∧
        ∀ sl, ¬ priv sl → (B.states σ).values sl = (A.states σ).values sl)

variable {E D σ tagOf strOf ext}

theorem hrep_nil {nodes : Ref → DNode P} {rs : List Ref} {F : List Nat} (h : HRep tagOf strOf nodes rs [] F) : rs = [] := by
  cases h; rfl

theorem Transforms.of_nil {f : List Ref → Comp P X W (List Ref)} {A : Store P W} {Q : List Node → Prop} {Q' : List Node → Store P W → Prop} {n0 : Prop}
    (hq : ∀ ns, Q ns → n0 → ns = []) (h : ∀ rs, (n0 → rs = []) → Makes tagOf strOf ⟨rs, Q⟩ (f rs) A Q') : Transforms tagOf strOf f A Q Q' := by
  intro rs Mm ns F hM hR hF hp
  refine h rs (fun hn => ?_) Mm ns F hM hR hF hp
  have := hq ns hp hn
  subst this
  exact hrep_nil hR

theorem definition_made (hL : L.Sound σ) (hH : HyperOk E D σ tagOf strOf ext L) (hm : ∀ c, isMark M c = true → 0x2768 ≤ c.toNat) (hE : EscapesHtml E)
    {d : Component} (hd : ComponentOk M void L.sigs Γ d) (hbv : L.bv = d.body) (hkeep : ∀ y, ¬ L.keep y) {c : Ctx} (hc : c.control = 0)
    (hg : Ctx.Good L { c with regular := c.regular + 1, hypertag := c.hypertag + 1 })
    (hb : ∀ sym, TopView L Γ void sym → ∃ sl, lookupBind c.binds sym = some sl)
    (hfix : ∀ sym sl, TopView L Γ void sym → lookupBind c.binds sym = some sl → L.fix sl.id)
    (hbase : ∀ A, L.base A → Situ E D σ tagOf void c.binds Γ ρ A ∧ ∀ n id sig f, L.hyper n = some (id, sig, f) →
      ∃ sl, lookupBind c.binds ('%' :: n) = some sl ∧ (A.states σ).values sl.id = some (.hyper (.defn id))) :
    ∃ as0 ss ba as ss' s c4, (∀ k, Spec.Block M names k 1 d.source [.group d.inc d.tmpl.items] (.defn k d.name none (bodyAttr d.body) as0 (.body ss) : Stmt P)) ∧
      (∀ k, analyse src (.defn k d.name none (bodyAttr d.body) as0 (.body ss)) c = .ok (.defn k d.name (some s.id) ba as (.body ss'), c4)) ∧
      (c4.binds = c.binds ++ [('%' :: d.name, s)] ∧ c4.next = s.id + 1 ∧ c.next ≤ s.id ∧ s.depth = c.regular ∧ c4.regular = c.regular ∧ c4.control = 0) ∧
      ∀ id, Expands E D σ tagOf strOf ext L.base (fun sl => L.priv sl ∨ (L.lo ≤ sl ∧ sl < s.id)) id ⟨ba, as, .body ss'⟩ d.sig
        (d.out (fun n => (void n).getD false) L.lib ρ) := by
  obtain ⟨c2, as0, ba, as, h⟩ := head_made (I := I) (E := E) (D := D) (σ := σ) (tagOf := tagOf) (void := void) (L := L) (names := names) hm hd hg
    (fun sym hs => hb sym (.inl hs))
  have hbound : Bound L (d.scope Γ) void c2.binds := by
    refine ⟨?_, fun y hy => absurd hy (hkeep _)⟩
    rintro sym ((⟨y, ⟨hy1, hy2⟩, rfl⟩ | ⟨n, v, hn, rfl⟩) | ⟨n, x, hn, rfl⟩ | ⟨b, hbb, rfl⟩)
    · by_cases hyp : y ∈ d.params.map Prod.fst
      · obtain ⟨p, hp, rfl⟩ := List.mem_map.1 hyp
        obtain ⟨a, ha, sl, -, k3, -⟩ := h.slots.mem' hp
        exact ⟨sl, k3⟩
      · obtain ⟨sl, k⟩ := hb _ (.inl (.inl ⟨y, hy1.resolve_left hyp, rfl⟩))
        exact ⟨sl, by rw [h.frame _ (fun z he => by simp only [List.cons.injEq, true_and] at he; rw [← he]; exact ⟨hyp, hy2⟩)]; exact k⟩
    · obtain ⟨sl, k⟩ := hb _ (.inl (.inr ⟨n, v, hn, rfl⟩))
      exact ⟨sl, by rw [h.frame _ (fun y he => by simp at he)]; exact k⟩
    · obtain ⟨sl, k⟩ := hb _ (.inr ⟨n, x, hn, rfl⟩)
      exact ⟨sl, by rw [h.frame _ (fun y he => by simp at he)]; exact k⟩
    · rw [hbv] at hbb
      obtain ⟨s, -, k, -⟩ := h.body b hbb
      exact ⟨s, k⟩
  have hT : d.tmpl.Ok M void L.sigs L.bv (d.scope Γ) d.body.isSome := by rw [hbv]; exact hd.tmpl
  have hmade := Tmpl.made (E := E) (D := D) (σ := σ) (tagOf := tagOf) (strOf := strOf) (ext := ext) (src := src) (names := names) (L := L) hL hH hm hE
    d.tmpl (d.scope Γ) d.body.isSome hT
  obtain ⟨ss, ss', c3, t1, t2, t3, t4⟩ := TmplMade.body hL hd.inc.1 hd.inc.2 hd.items hmade c2 h.good hbound
  have hstep := h.step.trans t3.step
  have hlb := leave_binds (c := c) (c1 := { c with regular := c.regular + 1, hypertag := c.hypertag + 1 }) rfl hstep
  have hnext : c.next ≤ c3.next := hstep.next
  refine ⟨as0, ss, ba.head?, as, ss', ⟨c3.next, c.regular⟩, { (c.leave c3).push ('%' :: d.name) ⟨c3.next, c.regular⟩ with next := c3.next + 1 }, fun k => ?_, fun k => ?_,
    ⟨?_, rfl, hnext, rfl, rfl, ?_⟩, fun id A vs kw cb cs hA hI hkw hvs hin ho => ?_⟩
  · have hbf : BodyFormal (bodySource d.body) (bodyAttr d.body) := by
      cases hbd : d.body with
      | none => exact .none
      | some b => exact .some (w := [' ']) (w' := []) (by simp [Blanks]) (by simp) (by simp [Blanks]) (hd.body b hbd).toName
    have := Spec.Block.define (P := P) (M := M) (names := names) (k := k) (c := 1) (w := [' ']) (t'' := []) (is := [.group d.inc d.tmpl.items]) (by simp [Blanks]) hd.name.toName hbf h.formals
      (by
        have e : ((bodyAttr d.body).toList ++ as0).map AttrDef.name = d.body.toList ++ d.params.map Prod.fst := by
          rw [List.map_append, h.formalNames]
          cases d.body <;> rfl
        rw [e]; exact hd.distinct)
      (by simp) (by simp) (.plain (t1 _))
    simpa [Component.source] using this
  · obtain ⟨asA, bb, cc, k1, k2, k3, k4⟩ := h.analysed
    rw [analyse, if_neg (by rw [hc]; decide)]
    simp only
    rw [k1]
    show (analyseDefaults _ as0 >>= _) = _
    rw [k2]
    show (declareAttrs bb _ >>= _) = _
    rw [k3]
    show (declareAttrs asA cc >>= _) = _
    rw [k4]
    show (analyse src (.body ss) c2 >>= _) = _
    rw [t2]
    show (newSlot (c.leave c3) ('%' :: d.name) >>= _) = _
    have : validSymbol ('%' :: d.name) = true := by
      obtain ⟨x, t, e, -⟩ := hd.name.start
      rw [e]; rfl
    unfold newSlot
    rw [if_pos this]; rfl
  · show (c.leave c3).binds ++ _ = _
    rw [hlb]
  · show c3.control = 0
    exact hstep.control.trans hc
  · unfold Component.out at ho
    split at ho
    · rename_i hval
      rw [List.all_eq_true] at hval
      rw [Option.map_eq_some_iff] at ho
      obtain ⟨cs', hcs, rfl⟩ := ho
      obtain ⟨hS, hY⟩ := hbase A hA
      refine Transforms.of_nil (n0 := d.body = none) (fun ns hq hbd => hq.2 (by simp [Component.sig, hbd])) (fun rs hrs => ?_)
      obtain ⟨da, A', e1, e2, e3, e4, e5⟩ := append_evals (ρ := ρ) hL hd h hbv hfix hS hY hA hkw hvs
        (fun a ha => by have := hin a ha; simpa [Component.sig, Function.comp_def] using this) hval (.body ss') rs hrs
      have hI' : (A'.ind σ).take 1 = ['\n'] := by rw [e2]; exact hI
      have hinc := blanks_oneLine hd.inc.1
      have p := t4 _ rs A' cb cs' e4 hI' hcs
      unfold expandDef
      refine Makes.eval e1 ?_
      have e : (do
          let out ← transl E σ (.body ss')
          let ind ← curIndent σ
          setIndent ind (nodesOf out)
          firstInline (nodesOf out)
          let r ← newNode .node (nodesOf out) (some ind) (some (.native id)) .none (some da)
          return [r] : Comp P X W (List Ref)) = (nodesBy E σ (.body ss') >>= fun rs => curIndent σ >>= fun ind =>
            ((setIndent ind rs >>= fun _ => pure rs) >>= fun rs => ((do (match rs with | [] => pure () | r :: _ => setOutline false r); return rs) >>= fun rs =>
              (do let r ← newNode .node rs (some ind) (some (.native id)) .none (some da); return [r])))) := by
        unfold nodesBy firstInline
        simp only [Comp.bind_assoc, Comp.pure_bind]
        rfl
      rw [e]
      have p' : Makes tagOf strOf ⟨rs, fun ns => Showing ext cb ns ∧ (d.sig.body = false → ns = [])⟩ (nodesBy E σ (.body ss')) A'
          (fun ns B => ∃ es, Dens ext (A'.ind σ ++ d.inc) ns es ∧ Runs E D σ tagOf void L c3.next c2.binds (d.scope Γ) (d.vars ρ vs) rs A' B ∧ Chunks es cs') := by
        cases hbd : d.body with
        | none =>
          rw [hbd] at p
          exact Makes.weaken p _
        | some b =>
          rw [hbd] at p
          exact Makes.pre p rfl (fun _ h => h.1)
      refine Makes.trans p' ?_
      rintro ns1 B ⟨es, hes, hR1, hch⟩
      have hBi : B.ind σ = A.ind σ := hR1.ind.trans e2
      refine Transforms.eval (c := fun _ => curIndent σ) (f := fun ind rs => ((setIndent ind rs >>= fun _ => pure rs) >>= fun rs => ((do (match rs with | [] => pure () | r :: _ => setOutline false r); return rs) >>= fun rs =>
              (do let r ← newNode .node rs (some ind) (some (.native id)) .none (some da); return [r]))))
        (fun _ => curIndent_evals B) ?_
      refine Transforms.trans (transforms_indent (B.ind σ) B _ (by rintro _ rfl; exact (hes.indent _).1)) ?_
      rintro _ B1 ⟨h1, _, rfl, rfl⟩
      subst h1
      have hlev := (hes.indent (B1.ind σ)).2
      refine Transforms.trans (transforms_outline false B1 _) ?_
      rintro ns2 B2 ⟨h1, h2⟩
      subst h1
      obtain ⟨c1', c2', c3'⟩ := component_text hch
      obtain ⟨t, ht1, ht2⟩ : ∃ t, Body (ext := ext) (B2.ind σ) ns2 t ∧ '\n' :: t = flat (componentLines cs') := by
        rcases h2 with ⟨rfl, h3⟩ | ⟨m, ms, rfl, h3⟩
        · have : es = [] := by
            cases es with
            | nil => rfl
            | cons x xs => rw [← h3] at hlev; cases hlev
          exact ⟨[], (Dens.nil (ext := ext) (J := B2.ind σ ++ [])).body (by rw [hBi]; exact hI) (by simp), c1' this⟩
        · rw [← h3] at hlev
          cases es with
          | nil => cases hlev
          | cons x xs =>
            cases hlev with
            | cons q1 q2 =>
              have := Dens.cons (q1.outlined false) q2
              rw [← List.append_nil (B2.ind σ)] at this
              exact ⟨_, this.body (by rw [hBi]; exact hI) (by simp), c2' x xs rfl⟩
      refine (transforms_node_at (X := X) .node (B2.ind σ) (some (.native id)) .none (some da) B2 _ (by rintro _ rfl; exact ht1.ok)).mono ?_
      rintro _ B3 ⟨h1, _, rfl, rfl⟩
      subst h1
      refine ⟨⟨t, ?_, .cons (.block ht2 c3') .nil⟩, hBi, e3.trans hR1.kept, fun sl hsl => ?_⟩
      · rw [← hBi]
        refine .cons (.level (by simp) ?_ ht1.arranged) .nil
        rw [ht1.text]
        rfl
      · rw [not_or] at hsl
        have hh : sl < L.lo ∨ c3.next ≤ sl := by
          by_cases hlo : L.lo ≤ sl
          · exact .inr (Nat.not_lt.1 (fun hlt => hsl.2 ⟨hlo, hlt⟩))
          · exact .inl (Nat.not_le.1 hlo)
        rw [hR1.quiet sl hsl.1 hh]
        exact e5 sl hsl.1 (hh.imp_right (Nat.le_trans t3.step.next))
    · cases ho

end
end Verif
