import Verif.Lemmas.ComponentDefs
import Verif.Props.Pages

/-! Scripts with components: all definitions, and the document. -/

namespace Verif
open Py Spec Ctx

/-- The same data with a greater bound on the number of iterations. -/
def Spec.PyData.lift {P X W : Type} {ops : PyOps P X W} {k m : Nat} (D : PyData ops k) (h : k ≤ m) : PyData ops m where
  rep := D.rep
  pending := D.pending
  string := D.string
  truth := D.truth
  text := D.text
  field := D.field
  iter h' := ⟨Nat.lt_of_lt_of_le (D.iter h').1 h, (D.iter h').2⟩
  next := D.next

/-- Components with the numbers of their definitions and their output. -/
abbrev Hypers := Str → Option (DefId × Sig × (List (Str × Data) → List Chunk → Option (List Chunk)))

section
variable {P X W I : Type} {ops : PyOps P X W} {k0 : Nat} (D : PyData ops k0) (σ : StateId) (tagOf : P → TagObj) (strOf : Val P → Str)
  (ext : Nat → Except RenderErr Str → List AttrVal → List (Str × AttrVal) → Except RenderErr Str) (void : Str → Option Bool)
  (src : Source P I) (M : Marks) (names : Str → Option Char) (Γ : Str → Prop) (ρ : Vars)

/-- Symbols of the script that are in use: variables, elements and components. -/
def TopSym (void : Str → Option Bool) (Γ : Str → Prop) (hyper : Hypers) (sym : Str) : Prop :=
  Vis Γ void sym ∨ ∃ n h, hyper n = some h ∧ sym = '%' :: n

/-- Variables, elements and components have their values. -/
structure TopBase (b : List (Str × SlotInfo)) (hyper : Hypers) (A : Store P W) : Prop where
  vars : ∀ y, Γ y → ∃ sl v d, lookupBind b ('$' :: y) = some sl ∧ (A.states σ).values sl.id = some v ∧ ρ y = some d ∧ D.rep v d
  tags : ∀ n v, void n = some v → ∃ sl, lookupBind b ('%' :: n) = some sl ∧ ∃ p, (A.states σ).values sl.id = some (.py p) ∧
    ops.isTag p = true ∧ tagOf p = .markup n v .html
  hypers : ∀ n id sig f, hyper n = some (id, sig, f) →
    ∃ sl, lookupBind b ('%' :: n) = some sl ∧ (A.states σ).values sl.id = some (.hyper (.defn id))

/-- Slots of the symbols in use. -/
def TopSlot (void : Str → Option Bool) (Γ : Str → Prop) (b : List (Str × SlotInfo)) (hyper : Hypers) (sl : Slot) : Prop :=
  ∃ sym s, TopSym void Γ hyper sym ∧ lookupBind b sym = some s ∧ s.id = sl

/-- The setting of the template of a component that is defined at `c`. -/
def innerSetting (hyper : Hypers) (priv : Slot → Prop) (c : Ctx) (bv : Option Str) : Setting P W where
  bv := bv
  hyper := hyper
  base := TopBase D σ tagOf void Γ ρ c.binds hyper
  fix := TopSlot void Γ c.binds hyper
  keep _ := False
  priv := priv
  lo := c.next
  deep := c.regular + 1

/-- The setting of the template after the definitions. -/
def mainSetting (hyper : Hypers) (priv : Slot → Prop) (c : Ctx) : Setting P W where
  bv := none
  hyper := hyper
  base := TopBase D σ tagOf void Γ ρ c.binds hyper
  fix := TopSlot void Γ c.binds hyper
  keep := TopSym void Γ hyper
  priv := priv
  lo := 0
  deep := 0

/-- The context after some definitions. -/
structure Top (hyper : Hypers) (priv : Slot → Prop) (c : Ctx) : Prop where
  made : ∀ b ∈ c.binds, b.2.id < c.next
  own : ∀ b ∈ c.binds, ∀ b' ∈ c.binds, b.2.id = b'.2.id → b.1 = b'.1
  pub : ∀ b ∈ c.binds, ¬ priv b.2.id
  old : ∀ sl, priv sl → sl < c.next
  flat : ∀ b ∈ c.binds, b.2.depth ≤ c.regular
  bound : ∀ sym, TopSym void Γ hyper sym → ∃ sl, lookupBind c.binds sym = some sl
  control : c.control = 0
  names : ∀ n h, hyper n = some h → TagName n ∧ ∀ q ∈ h.2.1.params, XmlName q.1

/-- Signatures and output of components. -/
def Hypers.sigs (hyper : Hypers) : Sigs := fun n => (hyper n).map (fun h => h.2.1)
def Hypers.lib (hyper : Hypers) : Lib := fun n vs cb => (hyper n).bind (fun h => h.2.2 vs cb)

/-- Components output what they stand for, from a certain level of nested calls. -/
def Contracts (Γd : DefId → DefInfo P) (hyper : Hypers) (priv : Slot → Prop) (b : List (Str × SlotInfo)) (j0 : Nat) : Prop :=
  ∀ j (h : k0 ≤ j + 1), j0 ≤ j → ∀ n id sig f, hyper n = some (id, sig, f) →
    Uses (envAt ops Γd (j + 1)) (D.lift h) σ tagOf strOf ext
      ⟨none, fun _ => none, TopBase D σ tagOf void Γ ρ b hyper, fun _ => False, fun _ => False, priv, 0, 0⟩ id sig f

variable {D σ tagOf strOf ext void src M names Γ ρ} {hyper hyper' : Hypers} {priv priv' : Slot → Prop} {c : Ctx}

theorem Top.slot (T : Top void Γ hyper priv c) {sl : Slot} (h : TopSlot void Γ c.binds hyper sl) : sl < c.next ∧ ¬ priv sl := by
  obtain ⟨sym, s, -, h2, rfl⟩ := h
  exact ⟨T.made _ (lookupBind_mem h2), T.pub _ (lookupBind_mem h2)⟩

theorem TopBase.change {b b' : List (Str × SlotInfo)} {A A' : Store P W} (h : TopBase D σ tagOf void Γ ρ b hyper A)
    (hb : ∀ sym, TopSym void Γ hyper sym → lookupBind b' sym = lookupBind b sym)
    (hA : ∀ sl, TopSlot void Γ b hyper sl → (A'.states σ).values sl = (A.states σ).values sl) : TopBase D σ tagOf void Γ ρ b' hyper A' := by
  refine ⟨fun y hy => ?_, fun n v hn => ?_, fun n id sig f hn => ?_⟩
  · obtain ⟨sl, v, d, h1, h2, h3⟩ := h.vars y hy
    have hs : TopSym void Γ hyper ('$' :: y) := .inl (.inl ⟨y, hy, rfl⟩)
    exact ⟨sl, v, d, by rw [hb _ hs]; exact h1, by rw [hA _ ⟨_, _, hs, h1, rfl⟩]; exact h2, h3⟩
  · obtain ⟨sl, h1, p, h2, h3⟩ := h.tags n v hn
    have hs : TopSym void Γ hyper ('%' :: n) := .inl (.inr ⟨n, v, hn, rfl⟩)
    exact ⟨sl, by rw [hb _ hs]; exact h1, p, by rw [hA _ ⟨_, _, hs, h1, rfl⟩]; exact h2, h3⟩
  · obtain ⟨sl, h1, h2⟩ := h.hypers n id sig f hn
    have hs : TopSym void Γ hyper ('%' :: n) := .inr ⟨n, _, hn, rfl⟩
    exact ⟨sl, by rw [hb _ hs]; exact h1, by rw [hA _ ⟨_, _, hs, h1, rfl⟩]; exact h2⟩

theorem TopBase.situ {b : List (Str × SlotInfo)} {A : Store P W} (h : TopBase D σ tagOf void Γ ρ b hyper A) (Γd : DefId → DefInfo P) {j : Nat} (hk : k0 ≤ j + 1) :
    Situ (envAt ops Γd (j + 1)) (D.lift hk) σ tagOf void b Γ ρ A := by
  refine ⟨h.vars, fun n v hn => ?_⟩
  obtain ⟨sl, h1, p, h2⟩ := h.tags n v hn
  exact ⟨sl, h1, fun _ => ⟨p, h2⟩⟩

theorem Top.innerSound (T : Top void Γ hyper priv c) (bv : Option Str) : (innerSetting D σ tagOf void Γ ρ hyper priv c bv).Sound σ :=
  ⟨fun _ _ h hA => TopBase.change h (fun _ _ => rfl) hA, fun _ h1 h2 => (T.slot h2).2 h1⟩

theorem Top.mainSound (T : Top void Γ hyper priv c) : (mainSetting D σ tagOf void Γ ρ hyper priv c).Sound σ :=
  ⟨fun _ _ h hA => TopBase.change h (fun _ _ => rfl) hA, fun _ h1 h2 => (T.slot h2).2 h1⟩

theorem Top.innerGood (T : Top void Γ hyper priv c) (bv : Option Str) :
    Ctx.Good (innerSetting D σ tagOf void Γ ρ hyper priv c bv) { c with regular := c.regular + 1, hypertag := c.hypertag + 1 } :=
  ⟨T.made, T.own, T.pub, T.old, fun _ h => (T.slot h).1, Nat.le_refl _,
    fun b hb h => absurd (Nat.lt_of_lt_of_le (Nat.lt_succ_self _) h) (Nat.not_lt.2 (T.flat b hb)), Nat.le_refl _⟩

theorem Top.mainGood (T : Top void Γ hyper priv c) : Ctx.Good (mainSetting D σ tagOf void Γ ρ hyper priv c) c := by
  refine ⟨T.made, T.own, T.pub, T.old, fun _ h => (T.slot h).1, Nat.zero_le _, fun b hb _ => ⟨Nat.zero_le _, ?_⟩, Nat.zero_le _⟩
  rintro ⟨sym, s, h1, h2, h3⟩
  have := T.own _ hb _ (lookupBind_mem h2) h3.symm
  show TopSym void Γ hyper b.1
  rw [this]; exact h1

theorem Top.mainBound (T : Top void Γ hyper priv c) : Bound (mainSetting D σ tagOf void Γ ρ hyper priv c) Γ void c.binds := by
  refine ⟨?_, ?_⟩
  · rintro sym (h | h | ⟨b, hb, -⟩)
    · exact T.bound _ (.inl h)
    · exact T.bound _ (.inr h)
    · cases hb
  · rintro y ((⟨z, hz, e⟩ | ⟨n, v, -, e⟩) | ⟨n, h, -, e⟩)
    · simp only [List.cons.injEq, true_and] at e; rw [e]; exact hz
    · simp at e
    · simp at e

/-- The same components, with nothing known about their output. -/
def Hypers.vacuous (hyper : Hypers) : Hypers := fun n => (hyper n).map (fun h => (h.1, h.2.1, fun _ _ => none))

theorem vacuous_some {n : Str} {h : DefId × Sig × (List (Str × Data) → List Chunk → Option (List Chunk))} (e : hyper.vacuous n = some h) :
    h.2.2 = (fun _ _ => none) ∧ ∃ f, hyper n = some (h.1, h.2.1, f) := by
  unfold Hypers.vacuous at e
  rw [Option.map_eq_some_iff] at e
  obtain ⟨⟨id, sig, f⟩, h1, rfl⟩ := e
  exact ⟨rfl, f, h1⟩

theorem vacuous_sym {sym : Str} (h : TopSym void Γ hyper.vacuous sym) : TopSym void Γ hyper sym := by
  rcases h with h | ⟨n, h, e, rfl⟩
  · exact .inl h
  · obtain ⟨-, f, e'⟩ := vacuous_some e
    exact .inr ⟨n, _, e', rfl⟩

theorem vacuous_sigs : hyper.vacuous.sigs = hyper.sigs := by
  funext n
  unfold Hypers.sigs Hypers.vacuous
  cases hyper n <;> rfl

theorem Top.vacuous (T : Top void Γ hyper priv c) : Top void Γ hyper.vacuous priv c :=
  ⟨T.made, T.own, T.pub, T.old, T.flat, fun sym h => T.bound sym (vacuous_sym h), T.control, fun n h e => by
    obtain ⟨-, f, e'⟩ := vacuous_some e
    have := T.names n _ e'
    exact this⟩

/-- What is found when a definition is read and analysed. -/
structure DefRead (d : Component) (c : Ctx) (as0 : List AttrDef) (ss : List (Stmt P)) (ba : Option AttrDef) (as : List AttrDef) (ss' : List (Stmt P)) (s : SlotInfo) (c4 : Ctx) : Prop where
  block : ∀ k, Spec.Block M names k 1 d.source [.group d.inc d.tmpl.items] (.defn k d.name none (bodyAttr d.body) as0 (.body ss) : Stmt P)
  analysed : ∀ k, analyse src (.defn k d.name none (bodyAttr d.body) as0 (.body ss)) c = .ok (.defn k d.name (some s.id) ba as (.body ss'), c4)
  ctx : c4.binds = c.binds ++ [('%' :: d.name, s)] ∧ c4.next = s.id + 1 ∧ c.next ≤ s.id ∧ s.depth = c.regular ∧ c4.regular = c.regular ∧ c4.control = 0

theorem defn_run (hm : ∀ c, isMark M c = true → 0x2768 ≤ c.toNat) (hE : Escaping ops) {d : Component} (T : Top void Γ hyper priv c)
    (hd : ComponentOk M void hyper.sigs Γ d) (Γd : DefId → DefInfo P) {j : Nat} (hk : k0 ≤ j + 1)
    (hu : ∀ n id sig f, hyper n = some (id, sig, f) →
      Uses (envAt ops Γd (j + 1)) (D.lift hk) σ tagOf strOf ext (innerSetting D σ tagOf void Γ ρ hyper priv c d.body) id sig f) :
    ∃ as0 ss ba as ss' s c4, DefRead (src := src) (M := M) (names := names) d c as0 ss ba as ss' s c4 ∧
      ∀ id, Expands (envAt ops Γd (j + 1)) (D.lift hk) σ tagOf strOf ext (TopBase D σ tagOf void Γ ρ c.binds hyper)
        (fun sl => priv sl ∨ (c.next ≤ sl ∧ sl < s.id)) id ⟨ba, as, .body ss'⟩ d.sig (d.out (fun n => (void n).getD false) hyper.lib ρ) := by
  obtain ⟨as0, ss, ba, as, ss', s, c4, h1, h2, h3, h4⟩ := definition_made (E := envAt ops Γd (j + 1)) (D := D.lift hk) (σ := σ) (tagOf := tagOf) (strOf := strOf) (ext := ext)
    (src := src) (names := names) (L := innerSetting D σ tagOf void Γ ρ hyper priv c d.body) (ρ := ρ) (T.innerSound d.body)
    ⟨fun n h e => (T.names n h e).1, fun n h e => (T.names n h e).2, hu⟩ hm hE.html hd rfl (fun _ h => h) T.control (T.innerGood d.body) T.bound
    (fun sym sl h1 h2 => ⟨sym, sl, h1, h2, rfl⟩) (fun A hA => ⟨TopBase.situ hA Γd hk, hA.hypers⟩)
  exact ⟨as0, ss, ba, as, ss', s, c4, ⟨h1, h2, h3⟩, h4⟩


/-- A definition is read and analysed in one way, and expands to its output when the components before it do. -/
theorem defn_step {U : Uni} [MarksApart M U] (D : PyData ops k0) (strOf : Val P → Str)
    (ext : Nat → Except RenderErr Str → List AttrVal → List (Str × AttrVal) → Except RenderErr Str) (hE : Escaping ops) {d : Component} (T : Top void Γ hyper priv c)
    (hd : ComponentOk M void hyper.sigs Γ d) (hok : ItemsOk [.line 0 d.source, .group d.inc d.tmpl.items]) :
    ∃ as0 ss ba as ss' s c4, DefRead (src := src) (M := M) (names := names) d c as0 ss ba as ss' s c4 ∧
      ∀ (Γd : DefId → DefInfo P) {j : Nat} (hk : k0 ≤ j + 1), (∀ n id sig f, hyper n = some (id, sig, f) →
        Uses (envAt ops Γd (j + 1)) (D.lift hk) σ tagOf strOf ext (innerSetting D σ tagOf void Γ ρ hyper priv c d.body) id sig f) →
      ∀ id, Expands (envAt ops Γd (j + 1)) (D.lift hk) σ tagOf strOf ext (TopBase D σ tagOf void Γ ρ c.binds hyper)
        (fun sl => priv sl ∨ (c.next ≤ sl ∧ sl < s.id)) id ⟨ba, as, .body ss'⟩ d.sig (d.out (fun n => (void n).getD false) hyper.lib ρ) := by
  have hm : ∀ c, isMark M c = true → 0x2768 ≤ c.toNat := MarksApart.high (U := U)
  have hd0 : ComponentOk M void hyper.vacuous.sigs Γ d := by rw [vacuous_sigs]; exact hd
  obtain ⟨as0, ss, ba, as, ss', s, c4, h, -⟩ := defn_run (D := D) (σ := σ) (tagOf := tagOf) (strOf := strOf) (ext := ext) (src := src) (names := names) (ρ := ρ)
    hm hE T.vacuous hd0 (fun _ => ⟨none, [], .body []⟩) (Nat.le_succ k0) (by
      intro n id sig f e A vs kw cb cs _ _ _ _ _ _ ho
      have hf : f = fun _ _ => none := (vacuous_some e).1
      rw [hf] at ho
      cases ho)
  refine ⟨as0, ss, ba, as, ss', s, c4, h, fun Γd j hk hu id => ?_⟩
  obtain ⟨as0', t, ba', as', t', s', c4', h', h2⟩ := defn_run (D := D) (σ := σ) (tagOf := tagOf) (strOf := strOf) (ext := ext) (src := src) (names := names) (ρ := ρ)
    hm hE T hd Γd hk hu
  have e1 : ([.xblock [] none (.defn 1 d.name none (bodyAttr d.body) as0 (.body ss))] : List (Stmt P)) =
      [.xblock [] none (.defn 1 d.name none (bodyAttr d.body) as0' (.body t))] :=
    C77_unambiguous M U P names (by simp) hok (.cons (m := 0) (is := [.group d.inc d.tmpl.items]) (rest := []) (h.block _) .nil) (by simp) hok
      (.cons (m := 0) (is := [.group d.inc d.tmpl.items]) (rest := []) (h'.block _) .nil) rfl
  simp only [List.cons.injEq, Stmt.xblock.injEq, Stmt.defn.injEq, Stmt.body.injEq, and_true, true_and] at e1
  obtain ⟨rfl, rfl⟩ := e1
  have e2 := h'.analysed 1
  rw [h.analysed 1] at e2
  simp only [Except.ok.injEq, Prod.mk.injEq, Stmt.defn.injEq, Stmt.body.injEq, Option.some.injEq, true_and] at e2
  obtain ⟨⟨e3, rfl, rfl, rfl⟩, -⟩ := e2
  have := h2 id
  rw [← e3] at this
  exact this

/-- One more component. -/
def Hypers.add (hyper : Hypers) (void : Str → Bool) (ρ : Vars) (d : Component) (id : DefId) : Hypers :=
  fun n => if n = d.name then some (id, d.sig, d.out void hyper.lib ρ) else hyper n

theorem Hypers.add_sigs (vd : Str → Bool) (d : Component) (id : DefId) : (hyper.add vd ρ d id).sigs = hyper.sigs.add d := by
  funext n
  unfold Hypers.add Hypers.sigs Sigs.add
  by_cases h : n = d.name <;> simp [h]

theorem Hypers.add_lib (vd : Str → Bool) (d : Component) (id : DefId) : (hyper.add vd ρ d id).lib = hyper.lib.add vd ρ d := by
  funext n vs cb
  unfold Hypers.add Hypers.lib Lib.add
  by_cases h : n = d.name <;> simp [h]

theorem add_some {vd : Str → Bool} {d : Component} {id : DefId} {n : Str} {h : DefId × Sig × (List (Str × Data) → List Chunk → Option (List Chunk))} :
    (hyper.add vd ρ d id) n = some h ↔ (n = d.name ∧ h = (id, d.sig, d.out vd hyper.lib ρ)) ∨ (n ≠ d.name ∧ hyper n = some h) := by
  unfold Hypers.add
  by_cases e : n = d.name
  · simp [e, eq_comm]
  · simp [e]

theorem add_sym {vd : Str → Bool} {d : Component} {id : DefId} (hn : hyper.sigs d.name = none) {sym : Str} :
    TopSym void Γ (hyper.add vd ρ d id) sym ↔ sym = '%' :: d.name ∨ TopSym void Γ hyper sym := by
  have hn' : hyper d.name = none := by
    unfold Hypers.sigs at hn
    simpa using hn
  constructor
  · rintro (h | ⟨n, h, e, rfl⟩)
    · exact .inr (.inl h)
    · rcases add_some.1 e with ⟨rfl, -⟩ | ⟨-, e⟩
      · exact .inl rfl
      · exact .inr (.inr ⟨n, h, e, rfl⟩)
  · rintro (rfl | h | ⟨n, h, e, rfl⟩)
    · exact .inr ⟨d.name, _, add_some.2 (.inl ⟨rfl, rfl⟩), rfl⟩
    · exact .inl h
    · refine .inr ⟨n, h, add_some.2 (.inr ⟨?_, e⟩), rfl⟩
      rintro rfl
      rw [hn'] at e
      cases e

theorem sym_new {d : Component} (hd : void d.name = none ∧ hyper.sigs d.name = none) {sym : Str} (h : TopSym void Γ hyper sym) : '%' :: d.name ≠ sym := by
  rintro rfl
  rcases h with (⟨y, _, e⟩ | ⟨n, v, e, e'⟩) | ⟨n, h, e, e'⟩
  · simp at e
  · simp only [List.cons.injEq, true_and] at e'
    rw [e', e] at hd; exact absurd hd.1 (by simp)
  · simp only [List.cons.injEq, true_and] at e'
    have := hd.2
    unfold Hypers.sigs at this
    rw [e', e] at this; exact absurd this (by simp)

section
variable {d : Component} {as0 as : List AttrDef} {ss ss' : List (Stmt P)} {ba : Option AttrDef} {s : SlotInfo} {c4 : Ctx} {id : DefId} {vd : Str → Bool}

theorem DefRead.lookup (h : DefRead (src := src) (M := M) (names := names) d c as0 ss ba as ss' s c4) (hd : void d.name = none ∧ hyper.sigs d.name = none)
    {sym : Str} (hs : TopSym void Γ hyper sym) : lookupBind c4.binds sym = lookupBind c.binds sym := by
  rw [h.ctx.1, lookup_push, if_neg (sym_new hd hs)]

theorem DefRead.top (h : DefRead (src := src) (M := M) (names := names) d c as0 ss ba as ss' s c4) (T : Top void Γ hyper priv c)
    (hd : ComponentOk M void hyper.sigs Γ d) : Top void Γ (hyper.add vd ρ d id) (fun sl => priv sl ∨ (c.next ≤ sl ∧ sl < s.id)) c4 := by
  obtain ⟨b1, b2, b3, b4, b5, b6⟩ := h.ctx
  have hmem : ∀ b ∈ c4.binds, b ∈ c.binds ∨ b = ('%' :: d.name, s) := by
    intro b hb
    rw [b1] at hb
    simpa using hb
  have hlt : ∀ b ∈ c.binds, b.2.id < s.id := fun b hb => Nat.lt_of_lt_of_le (T.made b hb) b3
  refine ⟨fun b hb => ?_, fun b hb b' hb' e => ?_, fun b hb => ?_, fun sl hsl => ?_, fun b hb => ?_, fun sym hs => ?_, b6, fun n x e => ?_⟩
  · rw [b2]
    rcases hmem b hb with hb | rfl
    · exact Nat.lt_succ_of_lt (hlt b hb)
    · exact Nat.lt_succ_self _
  · rcases hmem b hb with hb | rfl <;> rcases hmem b' hb' with hb' | rfl
    · exact T.own b hb b' hb' e
    · exact absurd (hlt b hb) (by rw [e]; exact Nat.lt_irrefl _)
    · exact absurd (hlt b' hb') (by rw [← e]; exact Nat.lt_irrefl _)
    · rfl
  · rcases hmem b hb with hb | rfl
    · rintro (h1 | ⟨h1, -⟩)
      · exact T.pub b hb h1
      · exact absurd (T.made b hb) (Nat.not_lt.2 h1)
    · rintro (h1 | ⟨-, h1⟩)
      · exact absurd (T.old _ h1) (Nat.not_lt.2 b3)
      · exact Nat.lt_irrefl _ h1
  · rw [b2]
    rcases hsl with h1 | ⟨-, h1⟩
    · exact Nat.lt_succ_of_lt (Nat.lt_of_lt_of_le (T.old _ h1) b3)
    · exact Nat.lt_succ_of_lt h1
  · rw [b5]
    rcases hmem b hb with hb | rfl
    · exact T.flat b hb
    · exact Nat.le_of_eq b4
  · rcases (add_sym hd.new.2).1 hs with rfl | hs
    · exact ⟨s, by rw [b1, lookup_push, if_pos rfl]⟩
    · rw [h.lookup hd.new hs]; exact T.bound _ hs
  · rcases add_some.1 e with ⟨rfl, rfl⟩ | ⟨-, e⟩
    · refine ⟨hd.name, fun q hq => ?_⟩
      obtain ⟨p, hp, rfl⟩ := List.mem_map.1 (show q ∈ d.params.map _ from hq)
      exact (hd.params p hp).2
    · exact T.names n x e

theorem DefRead.less (h : DefRead (src := src) (M := M) (names := names) d c as0 ss ba as ss' s c4)
    (hd : ComponentOk M void hyper.sigs Γ d) {A : Store P W} (hA : TopBase D σ tagOf void Γ ρ c4.binds (hyper.add vd ρ d id) A) :
    TopBase D σ tagOf void Γ ρ c.binds hyper A := by
  have hn' : ∀ n x, hyper n = some x → (hyper.add vd ρ d id) n = some x := fun n x e => by
    refine add_some.2 (.inr ⟨?_, e⟩)
    rintro rfl
    have := hd.new.2
    unfold Hypers.sigs at this
    rw [e] at this; cases this
  refine ⟨fun y hy => ?_, fun n v hv => ?_, fun n id sig f hn => ?_⟩
  · rw [← h.lookup (Γ := Γ) hd.new (.inl (.inl ⟨y, hy, rfl⟩))]; exact hA.vars y hy
  · rw [← h.lookup (Γ := Γ) hd.new (.inl (.inr ⟨n, v, hv, rfl⟩))]; exact hA.tags n v hv
  · rw [← h.lookup (Γ := Γ) hd.new (.inr ⟨n, _, hn, rfl⟩)]; exact hA.hypers n id sig f (hn' _ _ hn)

theorem DefRead.more (h : DefRead (src := src) (M := M) (names := names) d c as0 ss ba as ss' s c4) (T : Top void Γ hyper priv c)
    (hd : ComponentOk M void hyper.sigs Γ d) {A : Store P W} (hA : TopBase D σ tagOf void Γ ρ c.binds hyper A) :
    TopBase D σ tagOf void Γ ρ c4.binds (hyper.add vd ρ d id) (A.setVar σ s.id (.hyper (.defn id))) := by
  have h1 : TopBase D σ tagOf void Γ ρ c4.binds hyper (A.setVar σ s.id (.hyper (.defn id))) := by
    refine hA.change (fun sym hs => h.lookup hd.new hs) (fun sl hs => ?_)
    rw [Store.setVar_value, if_neg]
    rintro rfl
    exact absurd (T.slot hs).1 (Nat.not_lt.2 h.ctx.2.2.1)
  refine ⟨h1.vars, h1.tags, fun n id' sig f hn => ?_⟩
  rcases add_some.1 hn with ⟨rfl, e⟩ | ⟨-, e⟩
  · simp only [Prod.mk.injEq] at e
    refine ⟨s, by rw [h.ctx.1, lookup_push, if_pos rfl], ?_⟩
    rw [Store.setVar_value, if_pos rfl, e.1]
  · exact h1.hypers n id' sig f e

end

theorem Contracts.add {d : Component} {Γd : DefId → DefInfo P} {as0 as : List AttrDef} {ss ss' : List (Stmt P)} {ba : Option AttrDef} {s : SlotInfo} {c4 : Ctx} {id : DefId}
    (h : DefRead (src := src) (M := M) (names := names) d c as0 ss ba as ss' s c4) (hd : ComponentOk M void hyper.sigs Γ d) (hid : Γd id = ⟨ba, as, .body ss'⟩)
    (hx : ∀ {j : Nat} (hk : k0 ≤ j + 1), (∀ n id sig f, hyper n = some (id, sig, f) →
        Uses (envAt ops Γd (j + 1)) (D.lift hk) σ tagOf strOf ext (innerSetting D σ tagOf void Γ ρ hyper priv c d.body) id sig f) →
      ∀ id, Expands (envAt ops Γd (j + 1)) (D.lift hk) σ tagOf strOf ext (TopBase D σ tagOf void Γ ρ c.binds hyper)
        (fun sl => priv sl ∨ (c.next ≤ sl ∧ sl < s.id)) id ⟨ba, as, .body ss'⟩ d.sig (d.out (fun n => (void n).getD false) hyper.lib ρ))
    {j0 : Nat} (hj : k0 ≤ j0) (hc : Contracts D σ tagOf strOf ext void Γ ρ Γd hyper priv c.binds j0) :
    Contracts D σ tagOf strOf ext void Γ ρ Γd (hyper.add (fun n => (void n).getD false) ρ d id) (fun sl => priv sl ∨ (c.next ≤ sl ∧ sl < s.id)) c4.binds (j0 + 1) := by
  intro j hk hjj n id' sig f hn A vs kw cb cs hA hI hkw hvs hin hreq ho
  rcases add_some.1 hn with ⟨rfl, e⟩ | ⟨-, e⟩
  · simp only [Prod.mk.injEq] at e
    obtain ⟨rfl, rfl, rfl⟩ := e
    obtain ⟨i, rfl⟩ : ∃ i, j = i + 1 := ⟨j - 1, by omega⟩
    have hi : j0 ≤ i := by omega
    have hki : k0 ≤ i + 1 := by omega
    have := hx (j := i) hki (fun n id sig f e => hc i hki hi n id sig f e) id' A vs kw cb cs (h.less hd hA) hI hkw hvs hin ho
    rw [← hid] at this
    exact this
  · have := hc j hk (by omega) n id' sig f e A vs kw cb cs (h.less hd hA) hI hkw hvs hin hreq ho
    exact this.mono (fun ns B ⟨h1, h2, h3, h4⟩ => ⟨h1, h2, h3, fun sl hs => h4 sl (fun hp => hs (.inl hp))⟩)

/-! ### All definitions -/

theorem defsAll_append (ss ts : List (Stmt P)) : Stmt.defsAll (ss ++ ts) = Stmt.defsAll ss ++ Stmt.defsAll ts := by
  induction ss with
  | nil => rfl
  | cons s ss ih => simp only [List.cons_append, Stmt.defsAll, ih, List.append_assoc]

/-- Definitions are read, analysed, and make components available. -/
theorem defs_made {U : Uni} [MarksApart M U] (D : PyData ops k0) (strOf : Val P → Str)
    (ext : Nat → Except RenderErr Str → List AttrVal → List (Str × AttrVal) → Except RenderErr Str) (hE : Escaping ops) (defs : List (Nat × Component)) :
    ∀ (hyper : Hypers) (priv : Slot → Prop) (c : Ctx) (pos : Nat), Top void Γ hyper priv c → DefsOk M void Γ hyper.sigs defs → ItemsOk (defs.flatMap defItems) →
    ∃ ss ss' c' hyper' priv',
      (∀ rest ssr, Spec.Blocks M names (pos + (itemsFlat M (defs.flatMap defItems)).length) rest ssr →
        Spec.Blocks M names pos (defs.flatMap defItems ++ rest) (ss ++ ssr : List (Stmt P))) ∧
      analyseAll src ss c = .ok (ss', c') ∧ Top void Γ hyper' priv' c' ∧
      hyper'.sigs = defs.foldl (fun sigs d => sigs.add d.2) hyper.sigs ∧
      hyper'.lib = defs.foldl (fun lib d => lib.add (fun n => (void n).getD false) ρ d.2) hyper.lib ∧
      (∀ Γd : DefId → DefInfo P, (∀ x ∈ Stmt.defsAll ss', Γd x.1 = x.2) → ∀ j0, k0 ≤ j0 →
        Contracts D σ tagOf strOf ext void Γ ρ Γd hyper priv c.binds j0 →
        Contracts D σ tagOf strOf ext void Γ ρ Γd hyper' priv' c'.binds (j0 + defs.length)) ∧
      ∀ (E : Env P X W) (A : Store P W) (ts : List (Stmt P)) (Z : List Entry → Store P W → Prop), TopBase D σ tagOf void Γ ρ c.binds hyper A →
        (∀ es B, TopBase D σ tagOf void Γ ρ c'.binds hyper' B → B.ind σ = A.ind σ → Chunks es (defs.flatMap (fun d => gap d.1)) →
          ShowsAll E σ tagOf strOf ext .none ts B [] (fun es' B' => Z (es ++ es') B')) →
        ShowsAll E σ tagOf strOf ext .none (ss' ++ ts) A [] Z := by
  induction defs with
  | nil =>
    intro hyper priv c pos T _ _
    refine ⟨[], [], c, hyper, priv, fun rest ssr h => h, by rw [analyseAll]; rfl, T, rfl, rfl, fun _ _ _ _ h => h, fun E A ts Z hA h => h [] A hA rfl .nil⟩
  | cons d defs ih =>
    intro hyper priv c pos T hd hok
    obtain ⟨m, d⟩ := d
    obtain ⟨hd1, hd2⟩ := hd
    have hok1 : ItemsOk ([.line m d.source, .group d.inc d.tmpl.items] ++ defs.flatMap defItems) := hok
    obtain ⟨ok1, ok2⟩ := ItemsOk.append hok1
    have T0 : Top void Γ hyper priv { c with prolog := false } := ⟨T.made, T.own, T.pub, T.old, T.flat, T.bound, T.control, T.names⟩
    obtain ⟨as0, ss, ba, as, ss', s, c4, h, hx⟩ := defn_step (U := U) (src := src) (names := names) (σ := σ) (tagOf := tagOf) (ρ := ρ) D strOf ext hE T0 hd1 ok1
    obtain ⟨tt, tt', c', hyper', priv', k1, k2, k3, k4, k5, k6, k7⟩ := ih (hyper.add (fun n => (void n).getD false) ρ d (pos + 1 + m)) _ c4
      (pos + (itemsFlat M [.line m d.source, .group d.inc d.tmpl.items]).length) (h.top T0 hd1) (by rw [Hypers.add_sigs]; exact hd2) ok2
    refine ⟨.xblock (List.replicate m '\n') none (.defn (pos + 1 + m) d.name none (bodyAttr d.body) as0 (.body ss)) :: tt,
      .xblock (List.replicate m '\n') none (.defn (pos + 1 + m) d.name (some s.id) ba as (.body ss')) :: tt', c', hyper', priv', fun rest ssr hr => ?_, ?_, k3, ?_, ?_,
      fun Γd hΓ j0 hj hc => ?_, fun E A ts Z hA hn => ?_⟩
    · have := Spec.Blocks.cons (rest := defs.flatMap defItems ++ rest) (h.block (pos + 1 + m)) (k1 rest ssr (by
        refine cast (congrArg (fun n => Spec.Blocks M names n rest ssr) ?_) hr
        show pos + (itemsFlat M ([.line m d.source, .group d.inc d.tmpl.items] ++ defs.flatMap defItems)).length = _
        rw [itemsFlat_append, List.length_append, Nat.add_assoc]))
      exact this
    · rw [analyseAll, analyse]
      show ((analyse src (.defn (pos + 1 + m) d.name none (bodyAttr d.body) as0 (.body ss)) { c with prolog := false } >>= _) >>= _) = _
      rw [h.analysed]
      show (analyseAll src tt c4 >>= _) = _
      rw [k2]; rfl
    · rw [k4, Hypers.add_sigs]; rfl
    · rw [k5, Hypers.add_lib]; rfl
    · have hid : Γd (pos + 1 + m) = ⟨ba, as, .body ss'⟩ := hΓ (pos + 1 + m, DefInfo.ofDefn ba as (.body ss')) (by simp [Stmt.defsAll, Stmt.defs])
      have := k6 Γd (fun x hx => hΓ x (by simp only [Stmt.defsAll]; exact List.mem_append_right _ hx)) (j0 + 1) (Nat.le_succ_of_le hj)
        (Contracts.add h hd1 hid (hx Γd) hj hc)
      rw [List.length_cons, Nat.add_comm defs.length 1, ← Nat.add_assoc]
      exact this
    · have hs : Shows E σ tagOf strOf ext .none (.defn (pos + 1 + m) d.name (some s.id) ba as (.body ss')) A []
          (fun es B => es = [] ∧ B = A.setVar σ s.id (.hyper (.defn (pos + 1 + m)))) := by
        refine Shows.none (o := none) [] ?_ rfl
        rw [transl]
        exact (setSlot_evals A s.id _).bind (Evals.pure _ _)
      refine ShowsAll.cons (.inl ⟨rfl, rfl⟩) (Shows.xblock hs) ?_ ?_
      · rintro _ B ⟨_, rfl, rfl, rfl⟩
        exact Store.setVar_ind ..
      · rintro _ B ⟨_, rfl, rfl, rfl⟩
        refine k7 E _ ts _ (h.more T0 hd1 hA) (fun es B hB hi hc => ?_)
        have := hn (marginEntry (List.replicate m '\n') ++ es) B hB (hi.trans (Store.setVar_ind ..)) (by
          rw [List.flatMap_cons]
          exact (chunks_margin m).append hc)
        have e : ∀ es', marginEntry (List.replicate m '\n') ++ modified none [] ++ (es ++ es') = marginEntry (List.replicate m '\n') ++ es ++ es' := by
          intro es'
          show marginEntry _ ++ [] ++ (es ++ es') = _
          simp
        simp only [e]
        exact this

theorem valueSlots_bound {first : Slot} {globals : Dict Str (Val P)} (hk : (Dict.keys globals).Nodup) {ins : List (Str × Slot × Val P)} {c1 : Ctx}
    (h : (valueSlots globals { next := first } : Except (AErr I) _) = .ok (ins, c1)) {sym : Str} {v : Val P} (hg : Dict.get? globals sym = some v) :
    ∃ sl, lookupBind c1.binds sym = some sl := by
  obtain ⟨k1, k2, k3, k4, k5⟩ := valueSlots_eq (I := I) globals { next := first } _ h
  have k1 : c1.binds = _ := k1
  have hlk : (Dict.keys ins).Nodup := by
    have : Dict.keys ins = Dict.keys globals := by
      have : Dict.keys globals = (ins.map (fun x => (x.1, x.2.2))).map (·.1) := by rw [k2]; rfl
      rw [this, List.map_map]; rfl
    rw [this]; exact hk
  have hmem : (sym, v) ∈ ins.map (fun x => (x.1, x.2.2)) := by rw [k2]; exact get?_mem hg
  obtain ⟨⟨sy, sl, w⟩, hx, e⟩ := List.mem_map.1 hmem
  simp only [Prod.mk.injEq] at e
  obtain ⟨rfl, rfl⟩ := e
  refine ⟨⟨sl, Ctx.regular { next := first }⟩, ?_⟩
  rw [k1]
  simp only [List.nil_append]
  rw [lookupBind_map hlk, get?_of_mem hlk hx]
  rfl

/-- A script with components, from the text to the document. -/
theorem program_document {U : Uni} [MarksApart M U] (hE : Escaping ops) {first : Slot} {globals : Dict Str (Val P)}
    (hv : ∀ x ∈ globals, validSymbol x.1 = true) (hk : (Dict.keys globals).Nodup)
    (ht : ∀ n v, void n = some v → ∃ p, Dict.get? globals ('%' :: n) = some (.py p) ∧ ops.isTag p = true ∧ tagOf p = .markup n v .html)
    (hx : ∀ y, Γ y → ∃ v d, Dict.get? globals ('$' :: y) = some v ∧ ρ y = some d ∧ D.rep v d)
    {p : Program} (hp : p.Ok M void Γ) (hok : ItemsOk p.items) (hne : p.items ≠ []) {cs : List Chunk}
    (ho : p.out (fun n => (void n).getD false) ρ = some cs) :
    ∃ ss doc, loadScript M U names (itemText p.items) = .ok ss ∧ analyseDocument src first globals ss = .ok doc ∧
      ∀ Γd : DefId → DefInfo P, (∀ x ∈ Stmt.defsAll doc.children, Γd x.1 = x.2) → ∀ n, k0 + p.defs.length < n →
      ∀ Mm : Machine P W, (Mm.states σ).indentation = ['\n'] →
      ∃ root syms M' node, translDocument (envAt ops Γd n) σ doc Mm = (.ok (root, syms), M') ∧ Unfolds tagOf strOf M'.mem.nodes root node ∧
        renderNode ext node = .ok (join ['\n'] (chunkLines cs)) := by
  have hm : ∀ c, isMark M c = true → 0x2768 ≤ c.toNat := MarksApart.high (U := U)
  unfold Program.out at ho
  rw [Option.map_eq_some_iff] at ho
  obtain ⟨cs0, ho, rfl⟩ := ho
  obtain ⟨ok1, ok2⟩ := ItemsOk.append hok
  obtain ⟨⟨ins, c1⟩, h1⟩ := valueSlots_ok (I := I) globals hv { next := first }
  have hg : c1.Good (Setting.plain P W) := valueSlots_good (I := I) globals { next := first } (.plain (by simp) (by simp)) (by simp) hk _ h1
  have hst : Ctx.Step { next := first } c1 := ((valueSlots_judge (I := I) globals { next := first }).post _ h1).1
  have hbinds := (valueSlots_eq (I := I) globals { next := first } _ h1).1
  let none0 : Hypers := fun _ => none
  have T : Top void Γ none0 (fun _ => False) c1 := by
    refine ⟨hg.made, hg.own, fun _ _ h => h, fun _ h => h.elim, fun b hb => ?_, ?_, hst.control, nofun⟩
    · have hbinds : c1.binds = _ := hbinds
      rw [hbinds] at hb
      simp only [List.nil_append, List.mem_map] at hb
      obtain ⟨x, -, rfl⟩ := hb
      rw [hst.regular]; exact Nat.le_refl _
    · have hkey : ∀ sym v, Dict.get? globals sym = some v → ∃ sl, lookupBind c1.binds sym = some sl := by
        intro sym v hgv
        exact valueSlots_bound (I := I) hk h1 hgv
      rintro sym ((⟨y, hy, rfl⟩ | ⟨n, v, hn, rfl⟩) | ⟨n, h, hn, -⟩)
      · obtain ⟨v, d, g1, -⟩ := hx y hy
        exact hkey _ _ g1
      · obtain ⟨p, g1, -⟩ := ht n v hn
        exact hkey _ _ g1
      · cases hn
  obtain ⟨ss, ss', c', hyper', priv', k1, k2, k3, k4, k5, k6, k7⟩ := defs_made (U := U) (X := X) (W := W) (src := src) (names := names) (σ := σ) (tagOf := tagOf) (ρ := ρ) D strOf ext hE p.defs
    none0 (fun _ => False) c1 0 T hp.defs ok1
  have hsig : hyper'.sigs = defsSigs p.defs := k4
  have hlib : hyper'.lib = defsLib (fun n => (void n).getD false) ρ p.defs := k5
  have hmain : ∀ h : Hypers, h.sigs = hyper'.sigs → p.main.Ok M void h.sigs none Γ false := fun h e => by rw [e, hsig]; exact hp.main
  obtain ⟨ts, ts', c2, b1, b2, -, -⟩ := Tmpl.made (E := envAt ops (fun _ => ⟨none, [], .body []⟩) (k0 + 1)) (D := D.lift (Nat.le_succ k0)) (σ := σ) (tagOf := tagOf) (strOf := strOf) (ext := ext)
    (src := src) (names := names) (L := mainSetting D σ tagOf void Γ ρ hyper'.vacuous priv' c') k3.vacuous.mainSound
    ⟨fun n h e => (k3.vacuous.names n h e).1, fun n h e => (k3.vacuous.names n h e).2, by
      intro n id sig f e A vs kw cb cs _ _ _ _ _ _ ho
      have hf : f = fun _ _ => none := (vacuous_some e).1
      rw [hf] at ho
      cases ho⟩ hm hE.html p.main Γ false (hmain _ vacuous_sigs) c' k3.vacuous.mainGood k3.vacuous.mainBound
  refine ⟨ss ++ ts, { slotsIn := ins.map Prod.snd, children := ss' ++ ts', slotsOut := (Dict.update [] (c2.binds.drop c1.binds.length)).map (fun p => (p.1, p.2.id)) }, C77_script M U P names hne hok (k1 _ _ (b1 _)), ?_,
    fun Γd hΓ n hn Mm hi => ?_⟩
  · unfold analyseDocument
    rw [h1]
    show (analyseAll src (ss ++ ts) c1 >>= _) = _
    rw [analyseAll_append, k2]
    show ((analyseAll src ts c' >>= _) >>= _) = _
    rw [b2]; rfl
  · obtain ⟨j, rfl⟩ : ∃ j, n = j + 1 := ⟨n - 1, by omega⟩
    have hkj : k0 ≤ j + 1 := by omega
    have hΓ : ∀ x ∈ Stmt.defsAll ss', Γd x.1 = x.2 := fun x hx => hΓ x (by rw [defsAll_append]; exact List.mem_append_left _ hx)
    have hcon := k6 Γd hΓ k0 (Nat.le_refl _) (by intro j hk hj n id sig f e; cases e)
    obtain ⟨us, us', c3, d1, d2, d3, d4⟩ := Tmpl.made (E := envAt ops Γd (j + 1)) (D := D.lift hkj) (σ := σ) (tagOf := tagOf) (strOf := strOf) (ext := ext)
      (src := src) (names := names) (L := mainSetting D σ tagOf void Γ ρ hyper' priv' c') k3.mainSound
      ⟨fun n h e => (k3.names n h e).1, fun n h e => (k3.names n h e).2, fun n id sig f e => hcon j hkj (by omega) n id sig f e⟩ hm hE.html p.main Γ false (hmain _ rfl)
      c' k3.mainGood k3.mainBound
    have e1 : us = ts := by
      by_cases hmi : p.main.items = []
      · have x1 := d1 0
        have x2 := b1 0
        rw [hmi] at x1 x2
        cases x1; cases x2; rfl
      · exact C77_unambiguous M U P names hmi ok2 (d1 0) hmi ok2 (b1 0) rfl
    subst e1
    rw [b2] at d2
    simp only [Except.ok.injEq, Prod.mk.injEq] at d2
    obtain ⟨rfl, rfl⟩ := d2
    obtain ⟨ins', c1', M1, g1, g2, g3⟩ := globals_bound (I := I) (X := X) (σ := σ) first globals hv hk Mm
    rw [h1] at g1
    cases g1
    have hS : TopBase D σ tagOf void Γ ρ c1.binds none0 M1.store := by
      refine ⟨fun y hy => ?_, fun n v hn => ?_, nofun⟩
      · obtain ⟨v, d, g4, g5, g6⟩ := hx y hy
        obtain ⟨sl, q1, q2⟩ := g3 _ _ g4
        exact ⟨sl, v, d, q1, q2, g5, g6⟩
      · obtain ⟨p, g4, g5, g6⟩ := ht n v hn
        obtain ⟨sl, q1, q2⟩ := g3 _ _ g4
        exact ⟨sl, q1, p, q2, g5, g6⟩
    have hind : M1.store.ind σ = ['\n'] := (setSlots_indent σ _ _ _ g2).trans hi
    have hrun : ShowsAll (envAt ops Γd (j + 1)) σ tagOf strOf ext .none (ss' ++ ts') M1.store []
        (fun es _ => Chunks es (p.defs.flatMap (fun d => gap d.1) ++ cs0)) := by
      refine k7 _ _ _ _ hS (fun es B hB hiB hc => ?_)
      refine (d4 ρ [] B [] cs0 ⟨TopBase.situ hB Γd hkj, hB.hypers, nofun, hB⟩ (by rw [hiB, hind]; rfl) ?_).mono (fun es' B' h => hc.append h.2)
      show p.main.out _ hyper'.lib ρ [] = _
      rw [hlib]; exact ho
    obtain ⟨root, syms, M', node, es, e1, b8, e3, e4⟩ := document_shows (X := X)
      (doc := { slotsIn := ins.map Prod.snd, children := ss' ++ ts', slotsOut := (Dict.update [] (c2.binds.drop c1.binds.length)).map (fun p => (p.1, p.2.id)) }) g2 rfl hind hrun
    refine ⟨root, syms, M', node, e1, e3, ?_⟩
    rw [e4, b8.shown [] (by simp), mapShift_nil, dropLine_flat]

end
end Verif
