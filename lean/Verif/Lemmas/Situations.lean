import Verif.Lemmas.PageDocument
import Verif.Lemmas.Ctx
import Verif.Spec.PyData

/-! Situations in which the parts of a template are evaluated: values of variables that stand for data. -/

namespace Verif
open Py Spec

/-! ### Paths -/

theorem split_head {sep : Char} {v : Str} (hv : sep ∉ v) (t : Str) : split sep (v ++ sep :: t) = v :: split sep t := by
  induction v with
  | nil => simp [split]
  | cons c v ih =>
    simp only [List.mem_cons, not_or] at hv
    rw [List.cons_append, split, if_neg (fun h => hv.1 h.symm), ih hv.2]

theorem split_none {sep : Char} {v : Str} (hv : sep ∉ v) : split sep v = [v] := by
  induction v with
  | nil => rfl
  | cons c v ih =>
    simp only [List.mem_cons, not_or] at hv
    rw [split, if_neg (fun h => hv.1 h.symm), ih hv.2]

theorem split_path {v : Str} {ns : List Str} (hv : '.' ∉ v) (hn : ∀ n ∈ ns, '.' ∉ n) :
    split '.' (v ++ ns.flatMap ('.' :: ·)) = v :: ns := by
  induction ns generalizing v with
  | nil => simpa using split_none hv
  | cons n ns ih =>
    rw [List.flatMap_cons, List.cons_append, split_head hv, ih (hn n (List.mem_cons_self ..)) (fun x hx => hn x (List.mem_cons_of_mem _ hx))]

theorem Name.noDot {n : Str} (h : Spec.Name n) : '.' ∉ n := fun hn => absurd (h.chars _ hn) (by decide)

theorem value_path {ρ : Vars} {v : Str} {ns : List Str} (hv : VarName v) (hn : ∀ n ∈ ns, Spec.Name n) :
    ρ.value (v ++ ns.flatMap ('.' :: ·)) = (ρ v).bind (Data.fields ns) := by
  unfold Vars.value
  rw [split_path (Name.noDot hv.toName) (fun n h => Name.noDot (hn n h))]

section
variable {P X W I : Type} (E : Env P X W) (D : PyData E.ops E.fuel) (σ : StateId) (tagOf : P → TagObj) (void : Str → Option Bool)

/-- The variables `Γ` have the values `ρ`, and the names of elements are bound to tags. -/
structure Situ (b : List (Str × SlotInfo)) (Γ : Str → Prop) (ρ : Vars) (A : Store P W) : Prop where
  vars : ∀ y, Γ y → ∃ sl v d, lookupBind b ('$' :: y) = some sl ∧ (A.states σ).values sl.id = some v ∧ ρ y = some d ∧ D.rep v d
  tags : TagsBound E σ (fun _ : Unit => A) b tagOf void

/-- Iterators are not disturbed. -/
def Kept {E : Env P X W} (D : PyData E.ops E.fuel) (A A' : Store P W) : Prop :=
  ∀ it l, D.pending A.world it l → D.pending A'.world it l

variable {E D σ tagOf void}

theorem Kept.refl (A : Store P W) : Kept D A A := fun _ _ h => h
theorem Kept.trans {A B C : Store P W} (h : Kept D A B) (h' : Kept D B C) : Kept D A C := fun it l hl => h' it l (h it l hl)

theorem Situ.setInd {b : List (Str × SlotInfo)} {Γ : Str → Prop} {ρ : Vars} {A : Store P W} (h : Situ E D σ tagOf void b Γ ρ A) (i : Str) :
    Situ E D σ tagOf void b Γ ρ (A.setInd σ i) := by
  refine ⟨fun y hy => ?_, fun n v hn => ?_⟩
  · obtain ⟨sl, v, d, h1, h2, h3, h4⟩ := h.vars y hy
    exact ⟨sl, v, d, h1, by simpa [Store.setInd] using h2, h3, h4⟩
  · obtain ⟨sl, h1, h2⟩ := h.tags n v hn
    refine ⟨sl, h1, fun j => ?_⟩
    obtain ⟨p, h3, h4⟩ := h2 j
    exact ⟨p, by simpa [Store.setInd] using h3, h4⟩

/-! ### Names that must not be disturbed -/

/-- The symbols of the variables `Γ` and of elements. -/
def Vis (Γ : Str → Prop) (void : Str → Option Bool) (sym : Str) : Prop :=
  (∃ y, Γ y ∧ sym = '$' :: y) ∨ ∃ n v, void n = some v ∧ sym = '%' :: n

/-- They are bound. -/
def Binds (Γ : Str → Prop) (void : Str → Option Bool) (b : List (Str × SlotInfo)) : Prop :=
  ∀ sym, Vis Γ void sym → ∃ sl, lookupBind b sym = some sl

theorem Situ.change {b b' : List (Str × SlotInfo)} {Γ Γ' : Str → Prop} {ρ ρ' : Vars} {A A' : Store P W} (h : Situ E D σ tagOf void b Γ ρ A)
    (hΓ : ∀ y, Γ' y → Γ y) (hρ : ∀ y, Γ' y → ρ' y = ρ y) (hb : ∀ sym, Vis Γ' void sym → lookupBind b' sym = lookupBind b sym)
    (hA : ∀ sym sl, Vis Γ' void sym → lookupBind b sym = some sl → (A'.states σ).values sl.id = (A.states σ).values sl.id) :
    Situ E D σ tagOf void b' Γ' ρ' A' := by
  refine ⟨fun y hy => ?_, fun n v hn => ?_⟩
  · obtain ⟨sl, v, d, h1, h2, h3, h4⟩ := h.vars y (hΓ y hy)
    have hv : Vis Γ' void ('$' :: y) := .inl ⟨y, hy, rfl⟩
    exact ⟨sl, v, d, (hb _ hv).trans h1, (hA _ _ hv h1).trans h2, (hρ y hy).trans h3, h4⟩
  · obtain ⟨sl, h1, h2⟩ := h.tags n v hn
    have hv : Vis Γ' void ('%' :: n) := .inr ⟨n, v, hn, rfl⟩
    refine ⟨sl, (hb _ hv).trans h1, fun j => ?_⟩
    obtain ⟨p, h3, h4⟩ := h2 j
    exact ⟨p, (hA _ _ hv h1).trans h3, h4⟩

/-! ### Values of expressions -/

theorem truth_evals {v : Val P} {d : Data} (h : D.rep v d) (A : Store P W) : Evals (truthOf E v) A d.truth A := by
  have := D.truth h
  cases v <;> simp only [TruthIs] at this <;> simp only [truthOf]
  · rintro Mm rfl
    unfold runPy
    rw [this]; rfl
  · rw [this]; exact Evals.pure _ _
  · rw [this]; exact Evals.pure _ _
  · rename_i s
    rw [this]
    have e : (!s.isEmpty) = decide (s ≠ []) := by cases s <;> simp
    rw [e]
    exact Evals.pure _ _

theorem text_evals {v : Val P} {d : Data} {s : Str} (h : D.rep v d) (hs : d.text = some s) (A : Store P W) : Evals (STR E v) A s A := by
  cases d <;> simp only [Data.text, Option.some.injEq, reduceCtorEq] at hs
  subst hs
  rcases D.text h with rfl | ⟨h1, h2, h3⟩
  · exact Evals.pure _ _
  · have : STR E v = runPy E (E.ops.str v) := by
      cases v <;> first | rfl | exact absurd rfl h1 | exact absurd rfl (h2 _)
    rw [this]
    rintro Mm rfl
    unfold runPy
    rw [h3]; rfl

theorem qualified_rep {c : Comp P X W (Val P)} {v : Val P} {d : Data} {A : Store P W} (h : Evals c A v A) (hd : D.rep v d) :
    Evals (qualified E none c) A v A := qualified_none h (truth_evals hd A)

theorem fields_evals {v : Val P} {d d' : Data} {ns : List Str} (h : D.rep v d) (hd : d.fields ns = some d') :
    ∃ v', D.rep v' d' ∧ ∀ A : Store P W, Evals (applyTails E σ (ns.map Tail.member) v) A v' A := by
  induction ns generalizing v d with
  | nil =>
    simp only [Data.fields, Option.some.injEq] at hd
    subst hd
    exact ⟨v, h, fun A => by rw [List.map_nil, applyTails]; exact Evals.pure _ _⟩
  | cons n ns ih =>
    simp only [Data.fields, Option.bind_eq_some_iff] at hd
    obtain ⟨d1, h1, h2⟩ := hd
    obtain ⟨v1, g1, g2⟩ := D.field h h1
    obtain ⟨v', k1, k2⟩ := ih g2 h2
    refine ⟨v', k1, fun A => ?_⟩
    rw [List.map_cons, applyTails, applyTail]
    refine Evals.bind (a := v1) ?_ (k2 A)
    rintro Mm rfl
    unfold runPy
    rw [g1]; rfl

/-- How a path is read. -/
def pathExpr (v : Str) (ns : List Str) (sl : Option Slot) : Expr :=
  match ns with
  | [] => .varUse v sl
  | ns => .factor (.varUse v sl) (ns.map Tail.member) none

theorem tails_path {M : Marks} {names : Str → Option Char} {ns : List Str} (h : ∀ n ∈ ns, Spec.Name n) :
    Tails M names (ns.flatMap ('.' :: ·)) (ns.map Tail.member) := by
  induction ns with
  | nil => exact .nil
  | cons n ns ih =>
    rw [List.flatMap_cons, List.cons_append, List.map_cons]
    exact .member (w := []) (by simp [Blanks]) (h n (List.mem_cons_self ..)) (ih (fun x hx => h x (List.mem_cons_of_mem _ hx)))

theorem digit_nameStart {c : Char} (h : ascDigit c = true) : nameStart c = false := by
  unfold ascDigit at h
  simp only [Bool.and_eq_true, decide_eq_true_eq] at h
  unfold nameStart azI
  have hc : c ≠ '_' := by rintro rfl; exact absurd h (by decide)
  simp [hc]
  omega

theorem path_written {M : Marks} {names : Str → Option Char} {v : Str} {ns : List Str} (hv : VarName v) (h : ∀ n ∈ ns, Spec.Name n) :
    Written M names 1 (v ++ ns.flatMap ('.' :: ·)) (pathExpr v ns none) := by
  cases ns with
  | nil => simpa [pathExpr] using Written.mono (l := 0) (by omega) (by omega) (.var hv)
  | cons n ns =>
    have := Written.tails (M := M) (names := names) (q := none) (.var hv) (tails_path h) (by simp) (by
      intro c hc hd
      obtain ⟨c', s, e, hs, -⟩ := hv.start
      rw [e] at hc
      simp only [List.head?_cons, Option.some.injEq] at hc
      subst hc
      exfalso
      exact absurd hs (by rw [digit_nameStart hd]; decide))
    simpa [pathExpr, qualText] using this

/-- The expression is read, analysed and evaluated to its value. -/
theorem path_reads {M : Marks} {names : Str → Option Char} {b : List (Str × SlotInfo)} {Γ : Str → Prop} {x : Str} (hx : PathOk Γ x)
    (hb : Binds Γ void b) :
    ∃ e e', Written M names 1 x e ∧ analyseExpr (I := I) b e = .ok e' ∧
      ∀ ρ (A : Store P W) d, Situ E D σ tagOf void b Γ ρ A → ρ.value x = some d →
        ∃ v, D.rep v d ∧ ∀ i, Evals (eval E σ e') (A.setInd σ i) v (A.setInd σ i) := by
  obtain ⟨v, ns, rfl, hv, hΓ, hn⟩ := hx
  obtain ⟨sl, hsl⟩ := hb _ (.inl ⟨v, hΓ, rfl⟩)
  refine ⟨pathExpr v ns none, pathExpr v ns (some sl.id), path_written hv hn, ?_, fun ρ A d hS hd => ?_⟩
  · have hvar : analyseExpr (I := I) b (.varUse v none) = .ok (.varUse v (some sl.id)) := by
      rw [analyseExpr]; simp only [resolve, hsl]; rfl
    cases ns with
    | nil => exact hvar
    | cons n ns =>
      have ht : ∀ ns : List Str, analyseTails (I := I) b (ns.map Tail.member) = .ok (ns.map Tail.member) := by
        intro ns
        induction ns with
        | nil => rw [List.map_nil, analyseTails]; rfl
        | cons n ns ih => rw [List.map_cons, analyseTails, analyseTail, ih]; rfl
      simp only [pathExpr]
      rw [analyseExpr, hvar, ht]; rfl
  · rw [value_path hv hn] at hd
    obtain ⟨sl', u, d0, k1, k2, k3, k4⟩ := hS.vars v hΓ
    rw [hsl] at k1
    cases k1
    rw [k3] at hd
    have hr : ∀ i, Evals (eval E σ (.varUse v (some sl.id))) (A.setInd σ i) u (A.setInd σ i) := by
      intro i
      rw [eval]
      intro Mm hM
      have : (Mm.states σ).values sl.id = some u := by
        have : Mm.states = (A.setInd σ i).states := by rw [← hM]; rfl
        rw [this]
        simp only [Store.setInd, if_true]
        exact k2
      have h5 : (getSlot σ sl.id : Comp P X W _) Mm = (.ok (some u), Mm) := by
        unfold getSlot; rw [this]
      simp only [readName]
      rw [Comp.bind_ok h5, ← hM]; rfl
    obtain ⟨w, g1, g2⟩ := fields_evals (σ := σ) k4 hd
    cases ns with
    | nil =>
      simp only [Option.bind_some, Data.fields, Option.some.injEq] at hd
      subst hd
      exact ⟨u, k4, hr⟩
    | cons n ns =>
      refine ⟨w, g1, fun i => ?_⟩
      simp only [pathExpr]
      rw [eval]
      exact qualified_rep (Evals.bind (hr i) (g2 _)) g1

/-! ### Conditions and assignments -/

theorem Spec.Written.upTo {M : Marks} {names : Str → Option Char} {l l' : Nat} {t : Str} {e : Expr} (h : Written M names l t e)
    (hl : l ≤ l') (hm : l' ≤ 15) : Written M names l' t e := by
  induction l' with
  | zero => simp only [Nat.le_zero_eq] at hl; exact hl ▸ h
  | succ n ih =>
    by_cases h' : l = n + 1
    · exact h' ▸ h
    · exact .up (ih (by omega) (by omega)) (by omega)

/-- A condition is read, analysed and evaluated to its value. -/
theorem test_reads {M : Marks} {names : Str → Option Char} {b : List (Str × SlotInfo)} {Γ : Str → Prop} {x : Test} (hx : TestOk Γ x)
    (hb : Binds Γ void b) :
    ∃ e e', (∀ (k c : Nat) (is : List Item) (s : Stmt P), Spec.BlockBody M names (k + 1 + x.source.length) [] is s →
        Spec.Clause M names k c (' ' :: x.source) is e (some s)) ∧ analyseExpr (I := I) b e = .ok e' ∧
      ∀ ρ (A : Store P W) t, Situ E D σ tagOf void b Γ ρ A → x.value ρ = some t → Evals (eval E σ e' >>= truthOf E) A t A := by
  cases x with
  | holds x =>
    obtain ⟨e, e', h1, h2, h3⟩ := path_reads (M := M) (names := names) (E := E) (D := D) (σ := σ) (tagOf := tagOf) (I := I) hx hb
    refine ⟨.root none e, .root none e', fun k c is s hs => ?_, by rw [analyseExpr, h2]; rfl, fun ρ A t hS ht => ?_⟩
    · have := Spec.Clause.factor (k := k) (c := c) (w := [' ']) (t' := []) (by simp [Blanks]) (by simp) h1 (by simp) (.body hs)
      simpa [Test.source] using this
    · simp only [Test.value, Option.map_eq_some_iff] at ht
      obtain ⟨d, hd, rfl⟩ := ht
      obtain ⟨v, g1, g2⟩ := h3 ρ A d hS hd
      have g3 := g2 (A.ind σ)
      rw [A.setInd_self] at g3
      rw [eval]
      exact Evals.bind (qualified_rep g3 g1) (truth_evals g1 A)
  | fails x =>
    obtain ⟨e, e', h1, h2, h3⟩ := path_reads (M := M) (names := names) (E := E) (D := D) (σ := σ) (tagOf := tagOf) (I := I) hx hb
    refine ⟨.root none (.notTest 1 e), .root none (.notTest 1 e'), fun k c is s hs => ?_, by rw [analyseExpr, analyseExpr, h2]; rfl,
      fun ρ A t hS ht => ?_⟩
    · have hn : Spec.Nots M names 1 (s!!"not ") := .cons (n := 0) (w := [' ']) (t := []) (by simp [Blanks]) (by simp) .nil
      have hw : Written M names 15 (s!!"not " ++ x) (.notTest 1 e) :=
        (Spec.Written.nots hn (h1.upTo (by omega) (by omega))).upTo (by omega) (by omega)
      have := Spec.Clause.compound (k := k) (c := c) (w := [' ']) (t' := []) (by simp [Blanks]) (by simp) hw (.not (c := ' ') (t := x) (.inl rfl)) hs
      simpa [Test.source] using this
    · simp only [Test.value, Option.map_eq_some_iff] at ht
      obtain ⟨d, hd, rfl⟩ := ht
      obtain ⟨v, g1, g2⟩ := h3 ρ A d hS hd
      have g3 := g2 (A.ind σ)
      rw [A.setInd_self] at g3
      have g4 : Evals (eval E σ (.notTest 1 e')) A (.bool (!d.truth)) A := by
        rw [eval]
        refine Evals.bind g3 ?_
        simp only [if_true]
        exact Evals.bind (truth_evals g1 A) (Evals.pure _ _)
      rw [eval]
      exact Evals.bind (qualified_none g4 (Evals.pure (X := X) (!d.truth) A)) (Evals.pure _ _)

section
variable {J : Type} {M : Marks} {names : Str → Option Char} {b : List (Str × SlotInfo)} {Γ : Str → Prop} {ρ : J → Vars} {B : J → Store P W}

theorem path_known {x : Str} (hx : PathOk Γ x) (hb : Binds Γ void b) (hS : ∀ j, Situ E D σ tagOf void b Γ (ρ j) (B j))
    (hp : ∀ j, ((ρ j).text x).isSome = true) : Known E σ B b M names (fun j => (ρ j).env) I x := by
  obtain ⟨e, e', h1, h2, h3⟩ := path_reads (M := M) (names := names) (E := E) (D := D) (σ := σ) (tagOf := tagOf) (I := I) hx hb
  refine ⟨e, e', h1.upTo (by omega) (by omega), h2, fun j i => ?_⟩
  have := hp j
  rw [Option.isSome_iff_exists] at this
  obtain ⟨s, hs⟩ := this
  have he : (ρ j).env x = s := by simp [Vars.env, hs]
  rw [Vars.text, Option.bind_eq_some_iff] at hs
  obtain ⟨d, hd, hs⟩ := hs
  obtain ⟨v, g1, g2⟩ := h3 _ _ d (hS j) hd
  simp only [he]
  rw [eval]
  exact Evals.bind (qualified_rep (g2 i) g1) (text_evals g1 hs _)

theorem pieces_known {q : Bool} {ps : List Piece} (h : PiecesOk M (PathOk Γ) q ps) (hb : Binds Γ void b)
    (hS : ∀ j, Situ E D σ tagOf void b Γ (ρ j) (B j)) (hp : ∀ j, (ρ j).prints ps = true) :
    PiecesOk M (Known E σ B b M names (fun j => (ρ j).env) I) q ps := by
  induction ps with
  | nil => trivial
  | cons p ps ih =>
    have hp' : ∀ j, (ρ j).prints ps = true := fun j => by
      have := hp j
      simp only [Vars.prints, List.all_cons, Bool.and_eq_true] at this
      exact this.2
    cases p with
    | lit s => exact ⟨h.1, ih h.2 hp'⟩
    | expr x =>
      refine ⟨path_known h.1 hb hS (fun j => ?_), h.2.1, h.2.2.1, ih h.2.2.2 hp'⟩
      have := hp j
      simp only [Vars.prints, List.all_cons, Bool.and_eq_true] at this
      exact this.1

theorem content_known {c : Content} (h : ContentWritable M (PathOk Γ) c) (hb : Binds Γ void b)
    (hS : ∀ j, Situ E D σ tagOf void b Γ (ρ j) (B j)) (hp : ∀ j, (ρ j).shows c = true) :
    ContentWritable M (Known E σ B b M names (fun j => (ρ j).env) I) c ∧ ∀ j, '\n' ∉ c.html (ρ j).env := by
  have hn : ∀ j, '\n' ∉ c.html (ρ j).env := fun j => by
    have := hp j
    simp only [Vars.shows, Bool.and_eq_true, Bool.not_eq_true', List.contains_eq_mem, decide_eq_false_iff_not] at this
    exact this.2
  have hp' := fun j => (Bool.and_eq_true _ _ ▸ hp j).1
  cases c with
  | verbat s => exact ⟨h, hn⟩
  | normal ps => exact ⟨⟨pieces_known h.1 hb hS hp', h.2⟩, hn⟩
  | markup ps => exact ⟨⟨pieces_known h.1 hb hS hp', h.2⟩, hn⟩

theorem elem_known {e : Elem} (h : ElemOk M (PathOk Γ) e) (hb : Binds Γ void b) (hS : ∀ j, Situ E D σ tagOf void b Γ (ρ j) (B j))
    (hp : ∀ j, ∀ a ∈ e.attrs, (ρ j).prints a.2 = true) : ElemOk M (Known E σ B b M names (fun j => (ρ j).env) I) e :=
  ⟨h.name, h.names, h.distinct, fun a ha => pieces_known (h.values a ha) hb hS (fun j => hp j a ha)⟩

theorem elems_known {last : Bool} {es : List Elem} (h : ElemsOk M void (PathOk Γ) last es) (hb : Binds Γ void b)
    (hS : ∀ j, Situ E D σ tagOf void b Γ (ρ j) (B j)) (hp : ∀ j, (ρ j).opens es = true) :
    ElemsOk M void (Known E σ B b M names (fun j => (ρ j).env) I) last es := by
  have hp' : ∀ j, ∀ e ∈ es, ∀ a ∈ e.attrs, (ρ j).prints a.2 = true := fun j => by
    have := hp j
    simp only [Vars.opens, List.all_eq_true] at this
    exact this
  clear hp
  induction es with
  | nil => exact h
  | cons e es ih =>
    cases es with
    | nil => exact ⟨elem_known h.1 hb hS (fun j => hp' j e (by simp)), h.2⟩
    | cons e' es' =>
      exact ⟨elem_known h.1 hb hS (fun j => hp' j e (by simp)), h.2.1, ih h.2.2 (fun j x hx => hp' j x (List.mem_cons_of_mem _ hx))⟩

theorem tags_known (hb : Binds Γ void b) (hS : ∀ j, Situ E D σ tagOf void b Γ (ρ j) (B j)) : TagsBound E σ B b tagOf void := by
  intro n v hn
  obtain ⟨sl, hsl⟩ := hb _ (.inr ⟨n, v, hn, rfl⟩)
  refine ⟨sl, hsl, fun j => ?_⟩
  obtain ⟨sl', h1, h2⟩ := (hS j).tags n v hn
  rw [hsl] at h1
  cases h1
  exact h2 ()

end

/-- The right side of an assignment is read, analysed and evaluated to its value. -/
theorem given_reads {M : Marks} {names : Str → Option Char} (hm : ∀ c, isMark M c = true → 0x2768 ≤ c.toNat) {b : List (Str × SlotInfo)}
    {Γ : Str → Prop} {g : Given} (hg : GivenOk M Γ g) (hb : Binds Γ void b) :
    ∃ e e', Written M names 1 g.source e ∧ analyseExpr (I := I) b (.root none e) = .ok e' ∧
      ∀ ρ (A : Store P W) d, Situ E D σ tagOf void b Γ ρ A → g.value ρ = some d → ∃ v, D.rep v d ∧ Evals (eval E σ e') A v A := by
  cases g with
  | path x =>
    obtain ⟨e, e', h1, h2, h3⟩ := path_reads (M := M) (names := names) (E := E) (D := D) (σ := σ) (tagOf := tagOf) (I := I) hg hb
    refine ⟨e, .root none e', h1, by rw [analyseExpr, h2]; rfl, fun ρ A d hS hd => ?_⟩
    obtain ⟨v, g1, g2⟩ := h3 ρ A d hS hd
    have g3 := g2 (A.ind σ)
    rw [A.setInd_self] at g3
    exact ⟨v, g1, by rw [eval]; exact qualified_rep g3 g1⟩
  | string ps =>
    let J := { p : Vars × Store P W // Situ E D σ tagOf void b Γ p.1 p.2 ∧ p.1.prints ps = true }
    have hk := pieces_known (names := names) (I := I) (J := J) (ρ := fun j => j.1.1) (B := fun j => j.1.2) hg hb (fun j => j.2.1) (fun j => j.2.2)
    obtain ⟨es, h1, es', h2, h3⟩ := pieces_parts true hm ps hk
    refine ⟨.format es, .root none (.format es'), (Spec.Written.string (.inr rfl) h1).upTo (by omega) (by omega),
      by rw [analyseExpr, analyseExpr, h2]; rfl, fun ρ A d hS hd => ?_⟩
    simp only [Given.value, Option.ite_none_right_eq_some, Option.some.injEq] at hd
    obtain ⟨hp, rfl⟩ := hd
    have g3 := h3 ⟨(ρ, A), hS, hp⟩ (A.ind σ)
    simp only [A.setInd_self] at g3
    refine ⟨_, D.string _, ?_⟩
    rw [eval, eval]
    exact root_str (Evals.bind g3 (Evals.pure _ _))

end
end Verif
