import Verif.Lemmas.Elements
import Verif.Lemmas.Html

/-! Pages: how their blocks are read, analysed and translated. -/

namespace Verif
open Py Spec

theorem htmlEscape_blank (v : Str) : htmlEscape (' ' :: v) = ' ' :: htmlEscape v := by
  rw [htmlEscape_eq, htmlEscape_eq]; rfl

theorem htmlEscape_oneLine {v : Str} (h : '\n' ∉ v) : '\n' ∉ htmlEscape v := by
  rw [htmlEscape_eq, List.mem_flatMap]
  rintro ⟨c, hc, hm⟩
  unfold escChar at hm
  split at hm
  · exact absurd hm (by decide)
  · split at hm
    · exact absurd hm (by decide)
    · split at hm
      · exact absurd hm (by decide)
      · rw [List.mem_singleton] at hm
        exact h (hm ▸ hc)

theorem Spec.ContentOk.writable {M : Marks} {env : Str → Str} {known : Str → Prop} {c : Content} (h : ContentOk M env known c) :
    ContentWritable M known c := by
  cases c with
  | verbat s => exact h
  | normal ps => exact ⟨h.1, h.2.1⟩
  | markup ps => exact ⟨h.1, h.2.1⟩

theorem contentHtml_oneLine {M : Marks} {env : Str → Str} {known : Str → Prop} {c : Content} (h : ContentOk M env known c) :
    '\n' ∉ c.html env := by
  cases c with
  | verbat s => exact fun hm => (h.2 _ hm).1 rfl
  | normal ps => exact htmlEscape_oneLine h.2.2
  | markup ps => exact h.2.2

section
variable {P X W I J : Type} {E : Env P X W} {σ : StateId} {A : Store P W} {B : J → Store P W} {b : List (Str × SlotInfo)}
  {M : Marks} {names : Str → Option Char} {env : Str → Str} {envs : J → Str → Str} {tagOf : P → TagObj} {strOf : Val P → Str}
  {ext : Nat → Except RenderErr Str → List AttrVal → List (Str × AttrVal) → Except RenderErr Str} {void : Str → Option Bool}

variable (E) in
/-- The escape function is that of HTML. -/
def EscapesHtml : Prop := ∃ f, E.ops.escape = some f ∧ ∀ s A, Evals (runPy E (f s)) A (htmlEscape s) A

/-! ### Lines -/

theorem renderText_one {l : Line} {lead : Nat} {v : Str} (i : Str) (hl : 1 ≤ lead) (hv : '\n' ∉ v)
    (h : Evals (renderLine E σ l) (A.setInd σ []) (' ' :: v) (A.setInd σ [])) :
    Evals (renderText E σ lead [.line l]) (A.setInd σ i) v (A.setInd σ i) := by
  have h1 : Evals (keepIndent σ (do putIndent σ []; renderItems E σ [.line l])) (A.setInd σ i) (' ' :: v) (A.setInd σ i) := by
    intro Mm hM
    unfold keepIndent
    have h2 : (do putIndent σ []; renderItems E σ [.line l] : Comp P X W Str) Mm = (.ok (' ' :: v), Mm.withStore (A.setInd σ [])) := by
      have e1 : (putIndent σ [] : Comp P X W Unit) Mm = (.ok (), Mm.withStore (A.setInd σ [])) := by
        have : A.setInd σ [] = (A.setInd σ i).setInd σ [] := by rw [Store.setInd_setInd]
        rw [this, ← hM]; rfl
      rw [Comp.bind_ok e1]
      simp only [renderItems, renderItem, Comp.bind_assoc, Comp.pure_bind]
      have e2 := Evals.bind (f := fun ind => renderLine E σ l >>= fun s => (pure (ind ++ s ++ []) : Comp P X W Str))
        (curIndent_evals (σ := σ) (A.setInd σ [])) (Evals.bind h (Evals.pure _ _))
      have e3 := e2 (Mm.withStore (A.setInd σ [])) rfl
      rw [Store.setInd_ind] at e3
      have e6 : (Mm.withStore (A.setInd σ [])).withStore (A.setInd σ []) = Mm.withStore (A.setInd σ []) := rfl
      rw [e6] at e3
      simpa using e3
    rw [h2]
    have e4 : (Mm.states σ).indentation = i := by
      have : Mm.states = (A.setInd σ i).states := by rw [← hM]; rfl
      rw [this]; simp [Store.setInd]
    simp only [e4]
    have e5 : A.setInd σ i = (A.setInd σ []).setInd σ i := by rw [Store.setInd_setInd]
    rw [e5]
    rfl
  unfold renderText
  have := Evals.bind (f := fun body => (pure (layoutText lead body) : Comp P X W Str)) h1 (Evals.pure (layoutText lead (' ' :: v)) _)
  rw [layout_one lead v hl hv] at this
  exact this

theorem content_read (hm : ∀ c, isMark M c = true → 0x2768 ≤ c.toNat) (hE : EscapesHtml E) {c : Content}
    (h : ContentWritable M (Known E σ B b M names envs I) c) (hn : ∀ j, '\n' ∉ c.html (envs j)) :
    ∃ kd t l l', c.source = TextKind.mark kd :: t ∧ TextLine M names kd t l ∧
      analyseLine (I := I) b l = .ok l' ∧
      ∀ j i lead, 1 ≤ lead → Evals (renderText E σ lead [.line l']) ((B j).setInd σ i) (c.html (envs j)) ((B j).setInd σ i) := by
  have low : isMark M ' ' = false := by
    cases h : isMark M ' ' with
    | false => rfl
    | true => exact absurd (hm _ h) (by decide)
  have blank : TextChar M ' ' := by
    unfold isMark at low
    simp only [Bool.or_eq_false_iff, beq_eq_false_iff_ne] at low
    exact ⟨by decide, low.1.1.1, low.1.1.2, low.1.2, low.2⟩
  cases c with
  | verbat s =>
    obtain ⟨h1, h2⟩ := h
    refine ⟨.verbat, ' ' :: s, .verbat (' ' :: s), .verbat (' ' :: s), rfl, .verbat (by simp) ?_, rfl, fun j i lead hl => ?_⟩
    · intro d hd
      rcases List.mem_cons.1 hd with rfl | hd
      · exact blank
      · exact h2 d hd
    · exact renderText_one i hl (hn j) (by rw [renderLine]; exact Evals.pure _ _)
  | normal ps =>
    obtain ⟨h1, h2⟩ := h
    obtain ⟨es, g1, es', g2, g3⟩ := pieces_blank hm ps h1
    obtain ⟨f, f1, f2⟩ := hE
    refine ⟨.normal, _, _, .normal es', rfl, .normal (by simp) g1, ?_, fun j i lead hl => ?_⟩
    · rw [analyseLine, g2]; rfl
    · refine renderText_one i hl (hn j) ?_
      rw [renderLine]
      show Evals _ _ (' ' :: htmlEscape (piecesValue (envs j) ps)) _
      rw [← htmlEscape_blank]
      refine Evals.bind (g3 j []) ?_
      rw [f1]
      exact f2 _ _
  | markup ps =>
    obtain ⟨h1, h2⟩ := h
    obtain ⟨es, g1, es', g2, g3⟩ := pieces_blank hm ps h1
    refine ⟨.markup, _, _, .markup es', rfl, .markup (by simp) g1, ?_, fun j i lead hl => ?_⟩
    · rw [analyseLine, g2]; rfl
    · refine renderText_one i hl (hn j) ?_
      rw [renderLine]
      exact g3 j []

/-! ### Statements of a page -/

variable {src : Source P I}

theorem shownAll_append (inc : Str) (es es' : List Entry) : shownAll inc (es ++ es') = shownAll inc es ++ shownAll inc es' := by
  simp [shownAll]

theorem leaveProlog_binds (s : Stmt P) (c : Ctx) : (leaveProlog s c).binds = c.binds := by
  unfold leaveProlog; split <;> rfl

theorem marginEntry_shown (inc : Str) (m : Nat) : shownAll inc (marginEntry (List.replicate m '\n')) = flat (List.replicate m []) := by
  have : flat (List.replicate m []) = List.replicate m '\n' := by
    induction m with
    | zero => rfl
    | succ m ih => rw [List.replicate_succ, List.replicate_succ, ← ih]; rfl
  rw [this]
  cases m with
  | zero => rfl
  | succ m => simp [marginEntry, shownAll, Entry.shown, Entry.full, List.replicate_succ]

theorem Spec.ElemsOk.ne {known : Str → Prop} {last : Bool} {es : List Elem} (h : ElemsOk M void known last es) : es ≠ [] := by
  rintro rfl; exact h

theorem Spec.ElemsOk.inner {known : Str → Prop} {last : Bool} {es : List Elem} (h : ElemsOk M void known last es) :
    ∀ e ∈ es.dropLast, (void e.name).getD false = false := by
  induction es with
  | nil => exact absurd h (by simp [ElemsOk])
  | cons e es ih =>
    cases es with
    | nil => simp
    | cons e' es' =>
      obtain ⟨h1, h2, h3⟩ := h
      rw [List.dropLast_cons_of_ne_nil (by simp)]
      intro x hx
      rcases List.mem_cons.1 hx with rfl | hx
      · rw [h2]; rfl
      · exact ih h3 x hx

theorem Spec.ElemsOk.full {known : Str → Prop} {es : List Elem} (h : ElemsOk M void known false es) :
    ∀ e ∈ es, (void e.name).getD false = false := by
  induction es with
  | nil => exact absurd h (by simp [ElemsOk])
  | cons e es ih =>
    cases es with
    | nil =>
      obtain ⟨h1, v, h2, h3⟩ := h
      intro x hx
      rw [List.mem_singleton] at hx
      subst hx
      rw [h2, h3 rfl]; rfl
    | cons e' es' =>
      obtain ⟨h1, h2, h3⟩ := h
      intro x hx
      rcases List.mem_cons.1 hx with rfl | hx
      · rw [h2]; rfl
      · exact ih h3 x hx

/-- Names do not contain newlines. -/
theorem XmlName.oneLine {n : Str} (h : XmlName n) : '\n' ∉ n := by
  intro hn
  rcases h.chars _ hn with h | h | h | h
  · exact absurd h (by decide)
  · exact absurd h (by decide)
  · exact absurd h (by decide)
  · exact absurd h (by decide)

theorem Name.oneLine {n : Str} (h : Spec.Name n) : '\n' ∉ n := by
  intro hn
  exact absurd (h.chars _ hn) (by decide)

theorem quoteattr_oneLine (v : Str) : '\n' ∉ quoteattr v := by
  obtain ⟨q, inner, h1, h2, h3, -⟩ := quoteattr_form v
  rw [h1]
  have h4 := h3.2.2.2.1
  rcases h2 with rfl | rfl <;> simp [h4]

theorem elemHead_oneLine {known : Str → Prop} {e : Elem} (h : ElemOk M known e) : '\n' ∉ e.head env := by
  unfold Elem.head
  rw [List.mem_append, List.mem_flatMap]
  rintro (hn | ⟨a, ha, hn⟩)
  · exact Name.oneLine h.name.toName hn
  · rw [List.mem_cons, List.mem_append, List.mem_cons] at hn
    rcases hn with hn | hn | hn | hn
    · exact absurd hn (by decide)
    · exact XmlName.oneLine (h.names a ha) hn
    · exact absurd hn (by decide)
    · exact quoteattr_oneLine _ hn

theorem Spec.ElemsOk.all {known : Str → Prop} {last : Bool} {es : List Elem} (h : ElemsOk M void known last es) :
    ∀ e ∈ es, ElemOk M known e := by
  induction es with
  | nil => exact absurd h (by simp [ElemsOk])
  | cons e es ih =>
    cases es with
    | nil =>
      obtain ⟨h1, v, h2, h3⟩ := h
      intro x hx
      rw [List.mem_singleton] at hx
      subst hx
      exact h1
    | cons e' es' =>
      obtain ⟨h1, h2, h3⟩ := h
      intro x hx
      rcases List.mem_cons.1 hx with rfl | hx
      · exact h1
      · exact ih h3 x hx

theorem startTags_oneLine {known : Str → Prop} {es : List Elem} (h : ∀ e ∈ es, ElemOk M known e) : '\n' ∉ startTags env es := by
  unfold startTags
  rw [List.mem_flatMap]
  rintro ⟨e, he, hn⟩
  have h1 := elemHead_oneLine (env := env) (h e he)
  simp [h1] at hn

theorem endTags_oneLine {known : Str → Prop} {es : List Elem} (h : ∀ e ∈ es, ElemOk M known e) : '\n' ∉ endTags es := by
  unfold endTags
  rw [List.mem_flatMap]
  rintro ⟨e, he, hn⟩
  have h1 := Name.oneLine (h e (List.mem_reverse.1 he)).name.toName
  simp [h1] at hn

theorem emptyTags_oneLine {known : Str → Prop} (vd : Str → Bool) {es : List Elem} (h : ∀ e ∈ es, ElemOk M known e) :
    '\n' ∉ emptyTags vd env es := by
  induction es with
  | nil => simp [emptyTags]
  | cons e es ih =>
    have h1 := elemHead_oneLine (env := env) (h e (List.mem_cons_self ..))
    have h2 := Name.oneLine (h e (List.mem_cons_self ..)).name.toName
    cases es with
    | nil =>
      simp only [emptyTags]
      split <;> simp [h1, h2]
    | cons e' es' =>
      have h3 := ih (fun x hx => h x (List.mem_cons_of_mem _ hx))
      simp [emptyTags, h1, h2, h3]

theorem analyseAll_append (ss ts : List (Stmt P)) (c : Ctx) :
    analyseAll src (ss ++ ts) c = (do let (a, c) ← analyseAll src ss c; let (d, c) ← analyseAll src ts c; return (a ++ d, c)) := by
  induction ss generalizing c with
  | nil =>
    simp only [analyseAll, List.nil_append]
    show _ = (analyseAll src ts c >>= fun x => pure ([] ++ x.1, x.2))
    cases analyseAll src ts c <;> rfl
  | cons s ss ih =>
    simp only [List.cons_append, analyseAll]
    cases h : analyse src s c with
    | error e => rfl
    | ok r =>
      show (analyseAll src (ss ++ ts) r.2 >>= _) = _
      rw [ih]
      show _ = ((analyseAll src ss r.2 >>= _) >>= _)
      cases h1 : analyseAll src ss r.2 with
      | error e => rfl
      | ok r1 =>
        show ((analyseAll src ts r1.2 >>= _) >>= _) = (analyseAll src ts r1.2 >>= _)
        cases h2 : analyseAll src ts r1.2 <;> rfl

theorem analyse_indents (inc : Str) (c : Ctx) : analyseAll src (inc.map Stmt.indent) c = .ok (inc.map Stmt.indent, c) := by
  induction inc with
  | nil => rw [List.map_nil, analyseAll]; rfl
  | cons d inc ih =>
    rw [List.map_cons, analyseAll, analyse]
    show (analyseAll src (inc.map Stmt.indent) c >>= _) = _
    rw [ih]; rfl

theorem analyse_dedents (inc : Str) (c : Ctx) : analyseAll src (inc.map Stmt.dedent) c = .ok (inc.map Stmt.dedent, c) := by
  induction inc with
  | nil => rw [List.map_nil, analyseAll]; rfl
  | cons d inc ih =>
    rw [List.map_cons, analyseAll, analyse]
    show (analyseAll src (inc.map Stmt.dedent) c >>= _) = _
    rw [ih]; rfl

theorem analyse_bracket {inc : Str} {ss ss' : List (Stmt P)} {c c' : Ctx} (h : analyseAll src ss c = .ok (ss', c')) :
    analyseAll src (bracket .indent .dedent inc ss) c = .ok (bracket .indent .dedent inc ss', c') := by
  unfold bracket
  rw [analyseAll_append, analyseAll_append, analyse_indents]
  show ((analyseAll src ss c >>= _) >>= _) = _
  rw [h]
  show (analyseAll src _ c' >>= _) = _
  rw [analyse_dedents]
  rfl

theorem shift_oneLine {inc l : Str} (hinc : '\n' ∉ inc) (hl : '\n' ∉ l) : '\n' ∉ shift inc l := by
  unfold shift; split <;> simp [hinc, hl]

theorem blanks_oneLine {inc : Str} (h : Blanks inc) : '\n' ∉ inc := by
  intro hn; rcases h _ hn with h | h <;> exact absurd h (by decide)

end
end Verif
