import Verif.Lemmas.Pieces
import Verif.Lemmas.Dict

/-! Elements of pages: how they are read, analysed, and what they make of their contents. -/

namespace Verif
open Py Spec

/-! ### Lines -/

/-- Lines, each on its own line. -/
def flat (ls : List Str) : Str := ls.flatMap ('\n' :: ·)

theorem flat_append (ls ms : List Str) : flat (ls ++ ms) = flat ls ++ flat ms := by simp [flat]

theorem flat_join (ls : List Str) : flat ls = join ['\n'] ([] :: ls) := by
  have : ∀ (l : Str), l ++ flat ls = join ['\n'] (l :: ls) := by
    induction ls with
    | nil => intro l; simp [flat, join]
    | cons m ms ih =>
      intro l
      have := ih m
      simp only [flat, List.flatMap_cons] at this ⊢
      rw [List.cons_append, this]
      simp [join]
  simpa using this []

theorem lines_flat (ls : List Str) (h : ∀ l ∈ ls, '\n' ∉ l) : lines (flat ls) = [] :: ls :=
  lines_unique _ _ (by simp) (by intro l hl; rcases List.mem_cons.1 hl with rfl | hl; simp; exact h l hl) (flat_join ls).symm

/-- Lines are shifted. -/
theorem addIndent_flat (ls : List Str) (inc : Str) (h : ∀ l ∈ ls, '\n' ∉ l) (hinc : '\n' ∉ inc) :
    addIndent (flat ls) inc = flat (ls.map (shift inc)) := by
  have h1 := lines_addIndent (flat ls) inc hinc
  rw [lines_flat ls h] at h1
  have h2 := join_split '\n' (addIndent (flat ls) inc)
  unfold lines at h1
  rw [h1] at h2
  rw [← h2, flat_join]
  rfl

theorem flat_cons_drop (l : Str) (ls : List Str) : flat (l :: ls) = '\n' :: join ['\n'] (l :: ls) := by
  rw [flat_join]; simp [join]

/-! ### Heads of tags -/

theorem join_blank (x : Str) (ys : List Str) : join [' '] (x :: ys) = x ++ ys.flatMap (fun y => ' ' :: y) := by
  induction ys generalizing x with
  | nil => simp [join]
  | cons y ys ih =>
    have : join [' '] (x :: y :: ys) = x ++ ' ' :: join [' '] (y :: ys) := by simp [join]
    rw [this, ih y]; simp

theorem elemHead_eq (env : Str → Str) (e : Elem) :
    tagHead .html e.name (e.attrs.map (fun a => (a.1, AttrVal.obj (piecesValue env a.2)))) = e.head env := by
  unfold tagHead Elem.head
  have h1 : (List.filterMap (renderAttr .html) (e.attrs.map (fun a => (a.1, AttrVal.obj (piecesValue env a.2))))) =
      e.attrs.map (fun a => a.1 ++ '=' :: quoteattr (piecesValue env a.2)) := by
    rw [List.filterMap_map]
    rw [← List.filterMap_eq_map]
    congr 1
    funext a
    simp [renderAttr]
  have h2 : (e.attrs.map (fun a => a.1 ++ '=' :: quoteattr (piecesValue env a.2))).filter (fun s => !s.isEmpty) =
      e.attrs.map (fun a => a.1 ++ '=' :: quoteattr (piecesValue env a.2)) := by
    rw [List.filter_eq_self]
    intro s hs
    obtain ⟨a, _, rfl⟩ := List.mem_map.1 hs
    cases a.1 <;> simp
  rw [h1, h2, join_blank]
  congr 1
  rw [List.flatMap_map]

/-- What an element makes of its contents. -/
def wrapElem (void : Str → Bool) (env : Str → Str) (e : Elem) (t : Str) : Str :=
  if void e.name then '<' :: (e.head env ++ s!!" />")
  else '<' :: (e.head env ++ ('>' :: (t ++ ((if t.take 1 = ['\n'] then ['\n'] else []) ++ ('<' :: '/' :: (e.name ++ ['>']))))))

/-- Several elements. -/
def wrapElems (void : Str → Bool) (env : Str → Str) : List Elem → Str → Str
  | [], t => t
  | e :: es, t => wrapElem void env e (wrapElems void env es t)

theorem wrapElems_head (void : Str → Bool) (env : Str → Str) (e : Elem) (es : List Elem) (t : Str) :
    (wrapElems void env (e :: es) t).take 1 = ['<'] := by
  simp only [wrapElems, wrapElem]
  split <;> simp

section
variable {P X W I J : Type} {E : Env P X W} {σ : StateId} {A : J → Store P W} {b : List (Str × SlotInfo)}
  {M : Marks} {names : Str → Option Char} {env : J → Str → Str} {tagOf : P → TagObj} {strOf : Val P → Str}
  {ext : Nat → Except RenderErr Str → List AttrVal → List (Str × AttrVal) → Except RenderErr Str} {void : Str → Option Bool}

/-! ### Values of attributes -/

theorem root_str {c : Comp P X W (Val P)} {A A' : Store P W} {s : Str} (h : Evals c A (.str s) A') :
    Evals (qualified E none c) A (.str s) A' := by
  intro M hM
  unfold qualified
  rw [h M hM]
  simp only [qualStep, qualCheck, truthOf]
  show (if decide (s ≠ []) = true then pure (.str s) else pure (.str s) : Comp P X W (Val P)) _ = _
  split <;> rfl

theorem attr_value (hm : ∀ c, isMark M c = true → 0x2768 ≤ c.toNat) {ps : List Piece}
    (h : PiecesOk M (Known E σ A b M names env I) true ps) :
    ∃ e e', Spec.Value M names ('"' :: (piecesSource true ps ++ ['"'])) e ∧ analyseExpr (I := I) b e = .ok e' ∧
      ∀ j i, Evals (eval E σ e') ((A j).setInd σ i) (.str (piecesValue (env j) ps)) ((A j).setInd σ i) := by
  obtain ⟨es, h1, es', h2, h3⟩ := pieces_parts true hm ps h
  refine ⟨.root none (.format es), .root none (.format es'), .factor (.up (.string (.inr rfl) h1) (by omega)) (by simp) (by simp), ?_, fun j i => ?_⟩
  · rw [analyseExpr, analyseExpr, h2]; rfl
  · rw [eval, eval]
    exact root_str (Evals.bind (h3 j i) (Evals.pure _ _))

theorem Dict.set_fresh {V : Type} (d : Dict Str V) (k : Str) (v : V) (h : k ∉ Dict.keys d) : Dict.set d k v = d ++ [(k, v)] := by
  induction d with
  | nil => rfl
  | cons p d ih =>
    obtain ⟨k', v'⟩ := p
    simp only [Dict.keys, List.map_cons, List.mem_cons, not_or] at h
    simp only [Dict.set]
    rw [if_neg (fun he => h.1 he.symm), ih (by simpa [Dict.keys] using h.2)]
    rfl

/-- The attributes of an element. -/
theorem attrs_read (hm : ∀ c, isMark M c = true → 0x2768 ≤ c.toNat) (attrs : List (Str × List Piece)) (hx : ∀ a ∈ attrs, XmlName a.1)
    (hd : (attrs.map Prod.fst).Nodup) (hv : ∀ a ∈ attrs, PiecesOk M (Known E σ A b M names env I) true a.2) :
    ∃ ns ns' : List (Str × Expr), ns.map Prod.fst = attrs.map Prod.fst ∧ Spec.Attrs M names (attrs.flatMap (fun a => ' ' :: attrSource a)) (ns.map (fun x => (some x.1, x.2))) true ∧
      analyseNamed (I := I) b ns = .ok ns' ∧ ∀ j i (d : Dict Str (Val P)), (∀ a ∈ attrs, a.1 ∉ Dict.keys d) →
        Evals (evalNamed E σ ns' d) ((A j).setInd σ i) (d ++ attrs.map (fun a => (a.1, .str (piecesValue (env j) a.2)))) ((A j).setInd σ i) := by
  induction attrs with
  | nil =>
    refine ⟨[], [], rfl, .nil, rfl, fun j i d _ => ?_⟩
    rw [evalNamed]
    simpa using Evals.pure d ((A j).setInd σ i)
  | cons a attrs ih =>
    rw [List.map_cons, List.nodup_cons] at hd
    obtain ⟨ns, ns', h0, h1, h2, h3⟩ := ih (fun x hx' => hx x (List.mem_cons_of_mem _ hx')) hd.2 (fun x hx' => hv x (List.mem_cons_of_mem _ hx'))
    obtain ⟨e, e', g1, g2, g3⟩ := attr_value hm (hv a (List.mem_cons_self ..))
    have hattr : Spec.Attr M names (attrSource a) (some a.1) e true := by
      have := Spec.Attr.named (w1 := []) (w2 := []) (hx a (List.mem_cons_self ..)) (by simp [Blanks]) (by simp [Blanks]) g1
      simpa [attrSource] using this
    refine ⟨(a.1, e) :: ns, (a.1, e') :: ns', by simp [h0], ?_, ?_, fun j i d hdk => ?_⟩
    · rw [List.flatMap_cons, List.map_cons]
      cases attrs with
      | nil =>
        have hn : ns = [] := by simpa using h0
        subst hn
        have := Spec.Attrs.last (w := [' ']) (by simp [Blanks]) (by simp) hattr
        simpa using this
      | cons a' attrs' =>
        have := Spec.Attrs.cons (w := [' ']) (by simp [Blanks]) (by simp) hattr h1 (by simp)
        simpa using this
    · rw [analyseNamed, g2, h2]; rfl
    · rw [evalNamed]
      refine Evals.bind (g3 j i) ?_
      have hk := hdk a (List.mem_cons_self ..)
      rw [(Dict.get?_eq_none_iff d a.1).2 hk]
      simp only
      rw [Dict.set_fresh _ _ _ hk]
      have := h3 j i (d ++ [(a.1, .str (piecesValue (env j) a.2))]) ?_
      · simpa using this
      · intro x hx'
        simp only [Dict.keys, List.map_append, List.map_cons, List.map_nil, List.mem_append, List.mem_singleton, not_or]
        refine ⟨by simpa [Dict.keys] using hdk x (List.mem_cons_of_mem _ hx'), fun he => hd.1 ?_⟩
        rw [← he]
        exact List.mem_map_of_mem hx'

/-! ### Elements -/

variable (E σ A b tagOf void)

/-- The names of tags are bound to markup tags. -/
def TagsBound : Prop :=
  ∀ n v, void n = some v → ∃ sl, lookupBind b ('%' :: n) = some sl ∧ ∀ j, ∃ p, ((A j).states σ).values sl.id = some (.py p) ∧
    E.ops.isTag p = true ∧ tagOf p = .markup n v .html

variable {E σ A b tagOf void}

theorem elem_read (hm : ∀ c, isMark M c = true → 0x2768 ≤ c.toNat) (hT : TagsBound E σ A b tagOf void) {e : Elem} {v : Bool}
    (he : ElemOk M (Known E σ A b M names env I) e) (hv : void e.name = some v) :
    ∃ x x', Spec.Tag M names e.source x true ∧ analyseTag (I := I) b x = .ok x' ∧
      ∀ j i t, (v = true → t = []) →
        TagText E σ tagOf strOf ext x' ((A j).setInd σ i) t (wrapElem (fun n => (void n).getD false) (env j) e t) ((A j).setInd σ i) := by
  obtain ⟨ns, ns', h0, h1, h2, h3⟩ := attrs_read (P := P) hm e.attrs he.names he.distinct he.values
  obtain ⟨sl, g1, gp⟩ := hT _ _ hv
  refine ⟨.tag e.name none [] ns, .tag e.name (some sl.id) [] ns', ?_, ?_, fun j i t ht => ?_⟩
  · have := Spec.Tag.tag (us := []) (ns := ns) he.name Spec.Shorts.nil h1 (by simp)
    simpa [Elem.source] using this
  · rw [analyseTag, analyseExprs, h2]
    simp only [resolve, g1]
    rfl
  · obtain ⟨p, g2, g3, g4⟩ := gp j
    refine TagText.external (A1 := (A j).setInd σ i) (A2 := (A j).setInd σ i) (attrs := [])
      (kw := e.attrs.map (fun a => (a.1, .str (piecesValue (env j) a.2)))) (p := p) ?_ ?_ ?_ g3 ?_
    · rw [evalList]; exact Evals.pure _ _
    · simpa using h3 j i [] (by simp [Dict.keys])
    · rintro Mm hM
      have : (Mm.states σ).values sl.id = some (.py p) := by
        have : Mm.states = ((A j).setInd σ i).states := by rw [← hM]; rfl
        rw [this]
        simp only [Store.setInd, if_true]
        exact g2
      have h5 : (getSlot σ sl.id : Comp P X W _) Mm = (.ok (some (.py p)), Mm) := by
        unfold getSlot; rw [this]
      simp only [readTag]
      rw [Comp.bind_ok h5, ← hM]; rfl
    · rw [g4]
      simp only [expandTag, markupExpand, List.map_nil, ne_eq, not_true_eq_false, if_false, markupExpand']
      have hh : tagHead .html e.name (List.map (fun a => (a.1, attrVal strOf a.2)) (List.map (fun a => (a.1, Val.str (P := P) (piecesValue (env j) a.2))) e.attrs)) =
          e.head (env j) := by
        rw [← elemHead_eq, List.map_map]; rfl
      rw [hh]
      simp only [wrapElem, hv]
      cases v with
      | true =>
        rw [ht rfl]
        simp only [Option.getD_some, if_true]
        show Except.ok _ = _
        simp
      | false =>
        simp only [Option.getD_some, Bool.false_eq_true, if_false]
        show Except.ok _ = _
        simp

theorem TagTexts.snoc {xs : List TagExp} {x : TagExp} {A A1 A' : Store P W} {t u s : Str} (h : TagTexts E σ tagOf strOf ext xs A t u A1)
    (hi : A1.ind σ = A.ind σ) (h' : TagText E σ tagOf strOf ext x A1 u s A') : TagTexts E σ tagOf strOf ext (xs ++ [x]) A t s A' := by
  induction h with
  | one h => exact .cons h hi (.one h')
  | cons h h2 _ ih => exact .cons h h2 (ih (hi.trans h2.symm) h')

theorem elems_read (hm : ∀ c, isMark M c = true → 0x2768 ≤ c.toNat) (hT : TagsBound E σ A b tagOf void) {es : List Elem} {last : Bool}
    (he : ElemsOk M void (Known E σ A b M names env I) last es) :
    ∃ xs xs', Spec.Tags M names (elemsSource es) xs true ∧ analyseTags (I := I) b xs = .ok xs' ∧ xs' ≠ [] ∧
      ∀ j i t, (last = true → t = []) →
        TagTexts E σ tagOf strOf ext xs'.reverse ((A j).setInd σ i) t (wrapElems (fun n => (void n).getD false) (env j) es t) ((A j).setInd σ i) := by
  induction es with
  | nil => exact absurd he (by simp [ElemsOk])
  | cons e es ih =>
    cases es with
    | nil =>
      obtain ⟨h1, v, h2, h3⟩ := he
      obtain ⟨x, x', g1, g2, g3⟩ := elem_read (strOf := strOf) (ext := ext) hm hT h1 h2
      refine ⟨[x], [x'], .one g1, ?_, by simp, fun j i t ht => .one (g3 j i t ?_)⟩
      · simp only [analyseTags, g2]; rfl
      · intro hv
        cases last with
        | true => exact ht rfl
        | false => exact absurd (h3 rfl) (by simp [hv])
    | cons e' es' =>
      obtain ⟨h1, h2, h3⟩ := he
      obtain ⟨x, x', g1, g2, g3⟩ := elem_read (strOf := strOf) (ext := ext) hm hT h1 h2
      obtain ⟨xs, xs', k1, k2, k3, k4⟩ := ih h3
      refine ⟨x :: xs, x' :: xs', ?_, ?_, by simp, fun j i t ht => ?_⟩
      · have := Spec.Tags.cons (w1 := [' ']) (w2 := [' ']) g1 (by simp [Blanks]) (by simp [Blanks]) (by simp) k1
        simpa [elemsSource] using this
      · rw [analyseTags, g2, k2]; rfl
      · rw [List.reverse_cons]
        exact (k4 j i t ht).snoc rfl (g3 j i _ (by simp))

/-! ### Contents -/

theorem wrap_empty (void : Str → Bool) (env : Str → Str) (es : List Elem) (hne : es ≠ []) (hv : ∀ e ∈ es.dropLast, void e.name = false) :
    wrapElems void env es [] = emptyTags void env es := by
  induction es with
  | nil => exact absurd rfl hne
  | cons e es ih =>
    cases es with
    | nil => simp [wrapElems, wrapElem, emptyTags]
    | cons e' es' =>
      have h1 := hv e (by simp)
      have h2 := ih (by simp) (fun x hx => hv x (by rw [List.dropLast_cons_of_ne_nil (by simp)]; exact List.mem_cons_of_mem _ hx))
      have h3 := wrapElems_head void env e' es' []
      rw [wrapElems]
      unfold wrapElem
      rw [h3, h1, h2]
      simp [emptyTags]

theorem wrap_full (void : Str → Bool) (env : Str → Str) (es : List Elem) (hne : es ≠ []) (hv : ∀ e ∈ es, void e.name = false) (t : Str) :
    wrapElems void env es t = startTags env es ++ (t ++ ((if t.take 1 = ['\n'] then ['\n'] else []) ++ endTags es)) := by
  induction es with
  | nil => exact absurd rfl hne
  | cons e es ih =>
    have h1 := hv e (by simp)
    cases es with
    | nil => simp [wrapElems, wrapElem, startTags, endTags, h1]; congr
    | cons e' es' =>
      have h2 := ih (by simp) (fun x hx => hv x (List.mem_cons_of_mem _ hx))
      have h3 := wrapElems_head void env e' es' t
      rw [wrapElems]
      unfold wrapElem
      rw [h3, h1, h2]
      have e1 : startTags env (e :: e' :: es') = '<' :: (e.head env ++ ('>' :: startTags env (e' :: es'))) := by
        simp [startTags]
      have e2 : endTags (e :: e' :: es') = endTags (e' :: es') ++ ('<' :: '/' :: (e.name ++ ['>'])) := by
        simp [endTags]
      rw [e1, e2]
      simp

end
end Verif
