import Verif.Lemmas.Templates
import Verif.Spec.Sheets

/-! Templates with modifiers: they are read, analysed, and output their text. -/

namespace Verif
open Py Spec Ctx

/-! ### Parts of the output -/

/-- An entry shows a part of the output. -/
inductive SpanIs : Entry → Span → Prop
  | gap {p : Place} {x : Bool} {m : Nat} : SpanIs ⟨x, p, List.replicate m '\n'⟩ (.gap x m)
  | level {x : Bool} {s : Str} : SpanIs ⟨x, .level, s⟩ (.part x false s)
  | flush {x : Bool} {s : Str} : SpanIs ⟨x, .flush, s⟩ (.part x true s)

/-- The same for lists. -/
inductive Spans : List Entry → List Span → Prop
  | nil : Spans [] []
  | cons {e : Entry} {c : Span} {es : List Entry} {cs : List Span} : SpanIs e c → Spans es cs → Spans (e :: es) (c :: cs)

theorem Spans.append {es es' : List Entry} {cs cs' : List Span} (h : Spans es cs) (h' : Spans es' cs') : Spans (es ++ es') (cs ++ cs') := by
  induction h with
  | nil => exact h'
  | cons h1 _ ih => exact .cons h1 ih

theorem Spans.level {es : List Entry} {cs : List Span} (h : Spans es cs) :
    Spans (es.map (fun e => { e with place := .level })) (cs.map Span.atLevel) := by
  induction h with
  | nil => exact .nil
  | cons h1 _ ih =>
    refine .cons ?_ ih
    cases h1 with
    | gap => exact .gap
    | level => exact .level
    | flush => exact .level

theorem Spans.flush {es : List Entry} {cs : List Span} (h : Spans es cs) :
    Spans (es.map (fun e => { e with place := .flush })) (cs.map Span.atMargin) := by
  induction h with
  | nil => exact .nil
  | cons h1 _ ih =>
    refine .cons ?_ ih
    cases h1 with
    | gap => exact .gap
    | level => exact .flush
    | flush => exact .flush

theorem Spans.start {es : List Entry} {cs : List Span} (h : Spans es cs) : Spans (outlineFirst es) (startLine cs) := by
  cases h with
  | nil => exact .nil
  | cons h1 h2 =>
    refine .cons ?_ h2
    cases h1 with
    | gap => exact .gap
    | level => exact .level
    | flush => exact .flush

theorem Spans.modify (mo : Option Modifier) {es : List Entry} {cs : List Span} (h : Spans es cs) : Spans (modified mo es) (modify mo cs) := by
  cases mo with
  | none => exact h.start
  | some mo =>
    cases mo with
    | append => exact h
    | dedent => exact h.start.flush

theorem spans_margin (m : Nat) : Spans (marginEntry (List.replicate m '\n')) (blank m) := by
  cases m with
  | zero => exact .nil
  | succ m => exact .cons .gap .nil

theorem addIndent_lines (t inc : Str) (h : '\n' ∉ inc) : addIndent t inc = indentText inc t := by
  have h1 := lines_addIndent t inc h
  unfold indentText
  rw [← h1]
  exact (join_split '\n' _).symm

theorem SpanIs.shown {e : Entry} {c : Span} (h : SpanIs e c) (inc : Str) (hinc : '\n' ∉ inc) : e.shown inc = c.text inc := by
  cases h with
  | gap =>
    rename_i p x m
    have e2 : Entry.full ⟨x, p, List.replicate m '\n'⟩ = flat (Chunk.gap x m).lines := by
      have : (Chunk.gap x m).lines = List.replicate (if x then m + 1 else m) [] := rfl
      rw [this, flat_gap]
      cases x <;> simp [Entry.full, List.replicate_succ]
    have e3 : Span.text inc (.gap x m) = Entry.full ⟨x, p, List.replicate m '\n'⟩ := rfl
    rw [e3]
    cases p with
    | bare => rfl
    | flush => rfl
    | level =>
      show addIndent _ inc = _
      have ho : ∀ l ∈ (Chunk.gap x m).lines, '\n' ∉ l := by
        intro l hl
        rw [Chunk.lines, List.mem_replicate] at hl
        simp [hl.2]
      rw [e2, addIndent_flat _ _ ho hinc]
      simp [Chunk.lines, shift]
  | level => exact addIndent_lines _ _ hinc
  | flush => rfl

theorem Spans.shown {es : List Entry} {cs : List Span} (h : Spans es cs) (inc : Str) (hinc : '\n' ∉ inc) : shownAll inc es = spansText inc cs := by
  induction h with
  | nil => rfl
  | cons h1 _ ih =>
    show Entry.shown inc _ ++ shownAll inc _ = Span.text inc _ ++ spansText inc _
    rw [ih, h1.shown inc hinc]

theorem spans_one (s : Str) : Spans [⟨false, .level, s⟩] [.part false false s] := .cons .level .nil

theorem indentText_nil (s : Str) : indentText [] s = s := by
  rw [← addIndent_lines s [] (by simp)]; simp [addIndent]

theorem dropLine_without (s : Str) : dropLine s = withoutFirst s := by
  cases s with
  | nil => rfl
  | cons c s =>
    by_cases h : c = '\n'
    · subst h; rfl
    · have : withoutFirst (c :: s) = c :: s := by
        unfold withoutFirst
        split
        · rename_i h'; cases h'; exact absurd rfl h
        · rfl
      rw [this]
      simp [dropLine, startsWith, Ne.symm h]

section
variable {P X W I : Type} {E : Env P X W} {σ : StateId} {tagOf : P → TagObj} {strOf : Val P → Str}
  {ext : Nat → Except RenderErr Str → List AttrVal → List (Str × AttrVal) → Except RenderErr Str}

/-- The tag `.`. -/
theorem TagText.null (A : Store P W) (t : Str) : TagText E σ tagOf strOf ext .null A t t A := by
  intro I hI
  have : translTag E σ .null = (fun body => (do let r ← newNode .node body .none (some .null) .none .none; return [r] : Comp P X W (List Ref))) := by
    funext body; rw [translTag]
  rw [this]
  refine (transforms_node .node (some .null) none none A _).mono ?_
  rintro _ _ ⟨rfl, ms, rfl, hb⟩
  exact ⟨rfl, hb.wrap rfl, _, _, _, _, _, rfl, hb, rfl⟩

/-- A body with a headline. -/
theorem Shows.headed {l : Line} {ss : List (Stmt P)} {inc : Str} {A : Store P W} {s : Str} {Z : List Entry → Store P W → Prop}
    (hl : Evals (renderLine E σ l) A s A)
    (h : ShowsAll E σ tagOf strOf ext .none ss (A.setInd σ (A.ind σ ++ inc)) [] Z) (hi : ∀ es B, Z es B → B.ind σ = A.ind σ ++ inc) :
    Shows E σ tagOf strOf ext .none (.body (.line l :: bracket .indent .dedent inc ss)) A inc
      (fun es B => ∃ es' A1, es = ⟨false, .bare, s⟩ :: es' ∧ B = A1.setInd σ (A.ind σ) ∧ Z es' A1) := by
  unfold Shows
  have e : ∀ ss : List (Stmt P), nodesBy E σ (.body ss) = keepIndent σ (translAll E σ ss) := by
    intro ss
    unfold nodesBy
    rw [transl]
    exact nodesBy_some _
  rw [e]
  refine (keepIndent_makes (Q := fun ns B => ∃ es A1, Dens ext (A.ind σ ++ inc) ns (⟨false, .bare, s⟩ :: es) ∧ B = A1.setInd σ (A.ind σ) ∧ Z es A1) ?_).mono ?_
  · have e2 : translAll E σ (.line l :: bracket .indent .dedent inc ss) =
        (do let a ← nodesBy E σ (.line l); let b ← translAll E σ (bracket .indent .dedent inc ss); return a ++ b) := by
      rw [translAll]; unfold nodesBy; rw [Comp.bind_assoc]; rfl
    rw [e2]
    refine Makes.append (H1 := .none) (H2 := .none) (.inr ⟨rfl, rfl⟩) (Shows.line (tagOf := tagOf) (strOf := strOf) (ext := ext) inc hl) ?_
    rintro x _ ⟨es0, hx, rfl, rfl⟩
    unfold bracket
    rw [translAll_append, translAll_append]
    simp only [Comp.bind_assoc]
    refine Makes.eval (indents_eval inc _) ?_
    simp only [Comp.pure_bind, List.nil_append]
    unfold ShowsAll at h
    rw [Store.setInd_ind, List.append_nil] at h
    refine Makes.trans h ?_
    rintro ns B ⟨es, hd, hz⟩
    have hd' := dedents_eval (E := E) (X := X) inc _ B (hi es B hz)
    refine Transforms.eval (f := fun b rs => pure (rs ++ b)) (fun _ => hd') ?_
    simp only [List.append_nil]
    refine (Transforms.id _ _).mono ?_
    rintro _ _ ⟨rfl, rfl⟩
    exact ⟨es, B, hx.append hd, rfl, hz⟩
  · rintro ns _ ⟨_, rfl, es, A1, hd, rfl, hz⟩
    exact ⟨_, hd, es, A1, rfl, by rw [Store.setInd_setInd], hz⟩

variable {J : Type} {B : J → Store P W} {b : List (Str × SlotInfo)} {M : Marks} {names : Str → Option Char} {envs : J → Str → Str}

/-- A content as a headline. -/
theorem headline_read (hm : ∀ c, isMark M c = true → 0x2768 ≤ c.toNat) (hE : EscapesHtml E) {c : Content}
    (h : ContentWritable M (Known E σ B b M names envs I) c) :
    ∃ l l', Spec.Headline M names c.source [l] ∧ analyseLine (I := I) b l = .ok l' ∧
      ∀ j i, Evals (renderLine E σ l') ((B j).setInd σ i) (c.html (envs j)) ((B j).setInd σ i) := by
  cases c with
  | verbat s =>
    obtain ⟨h1, h2⟩ := h
    exact ⟨.verbat s, .verbat s, .blank (kd := .verbat) (.inl rfl) (.some (.verbat h1 h2)), rfl, fun j i => by rw [renderLine]; exact Evals.pure _ _⟩
  | normal ps =>
    obtain ⟨h1, h2⟩ := h
    obtain ⟨es, g1, es', g2, g3⟩ := (openParts false hm ps h1).closed
    obtain ⟨f, f1, f2⟩ := hE
    refine ⟨_, .normal es', .blank (kd := .normal) (.inl rfl) (.some (.normal h2 g1)), by rw [analyseLine, g2]; rfl, fun j i => ?_⟩
    rw [renderLine]
    refine Evals.bind (g3 j i) ?_
    rw [f1]
    exact f2 _ _
  | markup ps =>
    obtain ⟨h1, h2⟩ := h
    obtain ⟨es, g1, es', g2, g3⟩ := (openParts false hm ps h1).closed
    refine ⟨_, .markup es', .blank (kd := .markup) (.inl rfl) (.some (.markup h2 g1)), by rw [analyseLine, g2]; rfl, fun j i => ?_⟩
    rw [renderLine]
    exact g3 j i

variable {void : Str → Option Bool}

/-- Elements, or the tag `.`. -/
theorem tags_read (hm : ∀ c, isMark M c = true → 0x2768 ≤ c.toNat) (hT : TagsBound E σ B b tagOf void) {es : List Elem} {last : Bool}
    (he : es = [] ∨ ElemsOk M void (Known E σ B b M names envs I) last es) :
    ∃ xs xs', (∀ (k c : Nat) (t' : Str) (is : List Item) (s : Stmt P), t'.head? ≠ some '!' →
        Spec.StructBody M names (k + (tagsSource es).length) (c + (tagsSource es).length) t' is s →
        Spec.StructBlock M names k c (tagsSource es ++ t') is (.struct xs s)) ∧ analyseTags (I := I) b xs = .ok xs' ∧
      ∀ j i t, (last = true → t = []) →
        TagTexts E σ tagOf strOf ext xs'.reverse ((B j).setInd σ i) t (around (fun n => (void n).getD false) (envs j) es t) ((B j).setInd σ i) := by
  rcases he with rfl | he
  · refine ⟨[.null], [.null], fun k c t' is s _ hs => ?_, rfl, fun j i t _ => .one ?_⟩
    · exact .null (by simpa [tagsSource] using hs)
    · have : around (fun n => (void n).getD false) (envs j) [] t = t := by simp [around]
      rw [this]
      exact .null _ t
  · obtain ⟨xs, xs', h1, h2, h3, h4⟩ := elems_read (strOf := strOf) (ext := ext) hm hT he
    have e : tagsSource es = elemsSource es := by simp [tagsSource, he.ne]
    refine ⟨xs, xs', fun k c t' is s ht hs => ?_, h2, fun j i t ht => ?_⟩
    · rw [e] at hs ⊢
      exact .tags h1 (fun h => absurd h ht) (by simp) hs
    · have h5 := h4 j i t ht
      have e2 : around (fun n => (void n).getD false) (envs j) es t = wrapElems (fun n => (void n).getD false) (envs j) es t := by
        unfold around
        rw [if_neg he.ne]
        by_cases h0 : t = []
        · rw [if_pos h0, h0, wrap_empty _ _ _ he.ne he.inner]
        · rw [if_neg h0]
          have hl : last = false := by
            cases last with
            | false => rfl
            | true => exact absurd (ht rfl) h0
          subst hl
          rw [wrap_full _ _ _ he.ne he.full]
          cases t with
          | nil => exact absurd rfl h0
          | cons c t =>
            by_cases hc : c = '\n'
            · simp [newline?, hc]
            · simp [newline?, hc]
      rw [e2]
      exact h5

end

section
variable {P X W I : Type} (E : Env P X W) (D : PyData E.ops E.fuel) (σ : StateId) (M : Marks) (names : Str → Option Char)
  (tagOf : P → TagObj) (strOf : Val P → Str)
  (ext : Nat → Except RenderErr Str → List AttrVal → List (Str × AttrVal) → Except RenderErr Str) (void : Str → Option Bool)
  (src : Source P I) (L : Setting P W)

/-- The block `t`, with the items `is` under it, is read in any column, analysed, and outputs `out`. -/
def SheetBlockMade (Γ Γ' : Str → Prop) (t : Str) (is : List Item) (out : Vars → Option (List Span)) (after : Vars → Vars) : Prop :=
  ∀ d : Nat, 1 ≤ d → ∀ c : Ctx, c.Good L → Bound L Γ void c.binds → ∃ s s' c', (∀ k, Spec.Block M names k d t is s) ∧
    (s = .comment ∨ ∀ c : Ctx, leaveProlog s c = { c with prolog := false }) ∧
    analyse src s c = .ok (s', c') ∧ Grows L Γ void c c' ∧ Bound L Γ' void c'.binds ∧
    ∀ ρ A xs, Scene E D σ tagOf void L c.binds Γ ρ [] A → (A.ind σ).take 1 = ['\n'] → out ρ = some xs →
      Shows E σ tagOf strOf ext .none s' A [] (fun es B => Runs E D σ tagOf void L c'.next c.binds Γ ρ [] A B ∧
        Scene E D σ tagOf void L c'.binds Γ' (after ρ) [] B ∧ Spans es xs)

/-- The same for a list of blocks. -/
def SheetMade (Γ : Str → Prop) (is : List Item) (out : Vars → Option (List Span)) : Prop :=
  ∀ c : Ctx, c.Good L → Bound L Γ void c.binds → ∃ ss ss' c', (∀ k, Spec.Blocks M names k is ss) ∧
    analyseAll src ss c = .ok (ss', c') ∧ Grows L Γ void c c' ∧
    ∀ ρ A xs, Scene E D σ tagOf void L c.binds Γ ρ [] A → (A.ind σ).take 1 = ['\n'] → out ρ = some xs →
      ShowsAll E σ tagOf strOf ext .none ss' A [] (fun es B => Runs E D σ tagOf void L c'.next c.binds Γ ρ [] A B ∧ Spans es xs)

/-- The same for a group as the body of a block. -/
def SheetBodyMade (Γ : Str → Prop) (inc : Str) (is : List Item) (out : Vars → Option (List Span)) : Prop :=
  ∀ c : Ctx, c.Good L → Bound L Γ void c.binds → ∃ ss ss' c', (∀ k, Spec.Nested M names k [.group inc is] ss) ∧
    analyse src (.body ss) c = .ok (.body ss', c') ∧ Grows L Γ void c c' ∧
    ∀ ρ A xs, Scene E D σ tagOf void L c.binds Γ ρ [] A → (A.ind σ).take 1 = ['\n'] → out ρ = some xs →
      Shows E σ tagOf strOf ext .none (.body ss') A inc (fun es B => Runs E D σ tagOf void L c'.next c.binds Γ ρ [] A B ∧ Spans es xs)

/-- Trees of nodes at some level that show `xs`, with what happens. -/
def RunsSpans (n : Slot) (b : List (Str × SlotInfo)) (Γ : Str → Prop) (ρ : Vars) (A : Store P W) (J : Str) (xs : List Span)
    (ns : List Node) (B : Store P W) : Prop :=
  ∃ es, Dens ext J ns es ∧ Runs E D σ tagOf void L n b Γ ρ [] A B ∧ Spans es xs

/-- The same for clauses. -/
def SheetElseMade (Γ : Str → Prop) (is : List Item) (out : Vars → Option (List Span)) : Prop :=
  ∀ c : Ctx, c.Good L → Bound L Γ void c.binds → ∃ js ls cls els cls' els' c1 c', is = js ++ ls ∧ (∀ k, Spec.Elifs M names k js cls) ∧
    (∀ k, Spec.MaybeElse M names k ls els) ∧ analyseClauses src cls c = .ok (cls', c1) ∧ analyseElse src els c1 = .ok (els', c') ∧
    Grows L Γ void c c' ∧
    ∀ ρ A xs, Scene E D σ tagOf void L c.binds Γ ρ [] A → (A.ind σ).take 1 = ['\n'] → out ρ = some xs →
      ∃ J, Makes tagOf strOf .none (translIf E σ cls' (translOpt E σ els')) A
        (RunsSpans E D σ tagOf ext void L c'.next c.binds Γ ρ A J xs)

variable {E D σ M names tagOf strOf ext void src L} {Γ Γ' : Str → Prop}

/-! ### Lists of blocks -/

theorem SheetMade.nil : SheetMade E D σ M names tagOf strOf ext void src L Γ [] (fun _ => some []) := by
  intro c hg hb
  refine ⟨[], [], c, fun _ => .nil, by rw [analyseAll]; rfl, .refl hg, fun ρ A xs hS _ ho => ?_⟩
  cases ho
  refine (ShowsAll.nil _ A []).mono ?_
  rintro _ _ ⟨rfl, rfl⟩
  exact ⟨.refl hS, .nil⟩

/-- The column in which a block begins after a modifier. -/
def modifierColumn (mo : Option Modifier) : Nat := 1 + (modifierSource mo).length

theorem sheet_blocks_cons {m : Nat} (mo : Option Modifier) {t : Str} {is rest : List Item} {s : Stmt P} {ss : List (Stmt P)}
    (h : ∀ k, Spec.Block M names k (modifierColumn mo) t is s) (h' : ∀ k, Spec.Blocks M names k rest ss) (k : Nat) :
    Spec.Blocks M names k (.line m (modifierSource mo ++ t) :: (is ++ rest)) (.xblock (List.replicate m '\n') mo s :: ss) := by
  cases mo with
  | none => exact .cons (h _) (h' _)
  | some mo =>
    cases mo with
    | append => exact .append (w := [' ']) (by simp [Blanks]) (h _) (h' _)
    | dedent => exact .dedent (w := [' ']) (by simp [Blanks]) (h _) (h' _)

theorem SheetMade.cons {m : Nat} {mo : Option Modifier} {t : Str} {is rest : List Item}
    {out out' : Vars → Option (List Span)} {after : Vars → Vars}
    (h : SheetBlockMade E D σ M names tagOf strOf ext void src L Γ Γ' t is out after)
    (h' : SheetMade E D σ M names tagOf strOf ext void src L Γ' rest out') (hΓ : ∀ y, Γ y → Γ' y) (hρ : ∀ ρ y, Γ y → after ρ y = ρ y) :
    SheetMade E D σ M names tagOf strOf ext void src L Γ (.line m (modifierSource mo ++ t) :: (is ++ rest))
      (fun ρ => (out ρ).bind (fun a => (out' (after ρ)).map (fun r => blank m ++ (modify mo a ++ r)))) := by
  intro c hg hb
  obtain ⟨s, s', c1, h1, h2, h3, h4, h5, h6⟩ := h (modifierColumn mo) (Nat.le_add_right _ _) { c with prolog := false } (hg.of rfl rfl (Nat.le_refl _)) hb
  have hx : ∃ c1' : Ctx, analyse src (.xblock (List.replicate m '\n') mo s) c = .ok (.xblock (List.replicate m '\n') mo s', c1') ∧
      c1'.binds = c1.binds ∧ c1'.next = c1.next ∧ Grows L Γ void c c1' := by
    rcases h2 with rfl | h2
    · rw [analyse] at h3
      cases h3
      exact ⟨c, by rw [analyse]; rfl, rfl, rfl, .refl hg⟩
    · refine ⟨c1, ?_, rfl, rfl, ⟨⟨h4.step.regular, h4.step.control, h4.step.hypertag, h4.step.next, h4.step.binds⟩, h4.good, h4.same⟩⟩
      rw [analyse, h2, h3]; rfl
  obtain ⟨c1', k1, k2, k2', k3⟩ := hx
  obtain ⟨ss, ss', c2, g1, g2, g3, g4⟩ := h' c1' k3.good (by rw [k2]; exact h5)
  refine ⟨.xblock (List.replicate m '\n') mo s :: ss, .xblock (List.replicate m '\n') mo s' :: ss', c2,
    sheet_blocks_cons mo h1 g1, ?_, k3.trans g3 hΓ, fun ρ A xs hS hi ho => ?_⟩
  · rw [analyseAll, k1]
    show (analyseAll src ss c1' >>= _) = _
    rw [g2]; rfl
  · simp only [Option.bind_eq_some_iff, Option.map_eq_some_iff] at ho
    obtain ⟨a, ha, r, hr, rfl⟩ := ho
    have p := h6 ρ A a hS hi ha
    refine ShowsAll.cons (H1 := .none) (H2 := .none) (.inr ⟨rfl, rfl⟩) (Shows.xblock p) ?_ ?_
    · rintro _ B ⟨es, rfl, hR, -, -⟩
      exact hR.ind
    · rintro _ B ⟨es, rfl, hR, hS', hc⟩
      rw [← k2] at hS'
      refine (g4 (after ρ) B r hS' (by rw [hR.ind]; exact hi) hr).mono ?_
      rintro es' B' ⟨hR', hc'⟩
      refine ⟨⟨hR'.ind.trans hR.ind, hR.kept.trans hR'.kept, ?_, hR.quiet.trans hR'.quiet (by rw [← k2']; exact g3.step.next)⟩, ?_⟩
      · exact hR'.scene.to hΓ (fun y hy => (hρ ρ y hy).symm) (fun sym hs => (k3.same sym hs).symm)
      · rw [List.append_assoc]
        exact (spans_margin m).append (.append (hc.modify mo) hc')

/-! ### Simple blocks -/

theorem SheetBlockMade.comment {s : Str} (h : ∀ c ∈ s, TextChar M c) :
    SheetBlockMade E D σ M names tagOf strOf ext void src L Γ Γ ('-' :: '-' :: s) [] (fun _ => some []) id := by
  intro d hd c hg hb
  refine ⟨.comment, .comment, c, fun _ => .comment (mark := ['-', '-']) (.inr rfl) h .none, .inl rfl, by rw [analyse]; rfl, .refl hg, hb,
    fun ρ A xs hS _ ho => ?_⟩
  cases ho
  refine Shows.mono (Shows.comment A []) ?_
  rintro _ _ ⟨rfl, rfl⟩
  exact ⟨.refl hS, hS, .nil⟩

theorem SheetBlockMade.pass :
    SheetBlockMade E D σ M names tagOf strOf ext void src L Γ Γ (s!!"pass") [] (fun _ => some []) id := by
  intro d hd c hg hb
  refine ⟨.pass, .pass, c, fun _ => .pass, .inr (fun _ => rfl), by rw [analyse]; rfl, .refl hg, hb, fun ρ A xs hS _ ho => ?_⟩
  cases ho
  refine Shows.mono (Shows.pass A []) ?_
  rintro _ _ ⟨rfl, rfl⟩
  exact ⟨.refl hS, hS, .nil⟩

theorem SheetBlockMade.text (hm : ∀ c, isMark M c = true → 0x2768 ≤ c.toNat) (hE : EscapesHtml E) {ct : Content}
    (h : ContentWritable M (PathOk Γ) ct) :
    SheetBlockMade E D σ M names tagOf strOf ext void src L Γ Γ ct.source []
      (fun ρ => if ρ.shows ct then some [.part false false (ct.html ρ.env)] else none) id := by
  intro d hd c hg hb
  let J := { p : Vars × Store P W // Situ E D σ tagOf void c.binds Γ p.1 p.2 ∧ p.1.shows ct = true }
  obtain ⟨hk, hn⟩ := content_known (names := names) (I := I) (J := J) (ρ := fun j => j.1.1) (B := fun j => j.1.2) h hb.binds (fun j => j.2.1) (fun j => j.2.2)
  obtain ⟨kd, t, l, l', h1, h2, h3, h5⟩ := content_read hm hE hk hn
  refine ⟨.text d [.line l], .text d [.line l'], c, fun k => ?_, .inr (fun _ => rfl), ?_, .refl hg, hb, fun ρ A xs hS hi ho => ?_⟩
  · rw [h1]
    exact .struct (.text (.text (.some h2) .none))
  · rw [analyse]
    simp only [analyseItems, analyseItem, h3]
    rfl
  · simp only [Option.ite_none_right_eq_some, Option.some.injEq] at ho
    obtain ⟨hp, rfl⟩ := ho
    have he := h5 ⟨(ρ, A), hS.situ, hp⟩ (A.ind σ) d hd
    simp only [A.setInd_self] at he
    refine Shows.mono (Shows.text he rfl) ?_
    rintro _ _ ⟨rfl, rfl⟩
    exact ⟨.refl hS, hS, spans_one _⟩

/-- Elements or the tag `.` around a body. -/
theorem tags_made (hm : ∀ c, isMark M c = true → 0x2768 ≤ c.toNat) {es : List Elem} {last : Bool}
    (he : TagsOk M void Γ last es) {c : Ctx} (hg : c.Good L) (hb : Bound L Γ void c.binds) {d : Nat} {t' : Str} {is : List Item}
    {body body' : Stmt P} {c1 : Ctx} (ht : t'.head? ≠ some '!') (hs : ∀ k, Spec.StructBody M names k (d + (tagsSource es).length) t' is body)
    (ha : analyse src body { c with regular := c.regular + 1 } = .ok (body', c1))
    (hst : Ctx.Step { c with regular := c.regular + 1 } c1) :
    ∃ s s', (∀ k, Spec.Block M names k d (tagsSource es ++ t') is s) ∧
      (s = .comment ∨ ∀ c : Ctx, leaveProlog s c = { c with prolog := false }) ∧ analyse src s c = .ok (s', c.leave c1) ∧
      Grows L Γ void c (c.leave c1) ∧ Bound L Γ void (c.leave c1).binds ∧
      ∀ ρ A inc t, ρ.opens es = true → (A.ind σ).take 1 = ['\n'] →
        Shows E σ tagOf strOf ext .none body' A inc (fun ns B => Runs E D σ tagOf void L c1.next c.binds Γ ρ [] A B ∧ shownAll inc ns = t) →
        '\n' ∉ inc → (last = true → t = []) →
        Shows E σ tagOf strOf ext .none s' A [] (fun ns B => Runs E D σ tagOf void L (c.leave c1).next c.binds Γ ρ [] A B ∧
          Scene E D σ tagOf void L (c.leave c1).binds Γ (id ρ) [] B ∧
          Spans ns [.part false false (around (fun n => (void n).getD false) ρ.env es t)]) := by
  let J := { p : Vars × Store P W // Situ E D σ tagOf void c.binds Γ p.1 p.2 ∧ p.1.opens es = true }
  have hk : es = [] ∨ ElemsOk M void (Known E σ (fun j : J => j.1.2) c.binds M names (fun j : J => j.1.1.env) I) last es := by
    rcases he with he | he
    · exact .inl he
    · exact .inr (elems_known (names := names) (I := I) (J := J) (ρ := fun j => j.1.1) (B := fun j => j.1.2) he hb.binds (fun j => j.2.1) (fun j => j.2.2))
  have hT := tags_known (J := J) (ρ := fun j => j.1.1) (B := fun j => j.1.2) hb.binds (fun j => j.2.1)
  obtain ⟨xs, xs', h1, h2, h4⟩ := tags_read (strOf := strOf) (ext := ext) hm hT hk
  have hgr : Grows L Γ void c (c.leave c1) := Grows.leave (c1 := { c with regular := c.regular + 1 }) hg rfl rfl rfl hst
  refine ⟨.struct xs body, .struct xs' body', fun k => .struct (h1 _ _ _ _ _ ht (hs _)), .inr (fun _ => rfl), ?_,
    hgr, hgr.bound hb, fun ρ A inc t ho hi hsh hinc hl => ?_⟩
  · rw [analyse, h2]
    show (analyse src body { c with regular := c.regular + 1 } >>= _) = _
    rw [ha]; rfl
  · refine Shows.struct hsh (fun ns B h => h.1.ind) (fun ns B h => ?_) hi hinc
    obtain ⟨hR, rfl⟩ := h
    have ht := h4 ⟨(ρ, B), hR.scene.situ, ho⟩ (B.ind σ) _ hl
    simp only [B.setInd_self] at ht
    exact ⟨_, B, ht, hR.ind, hR, hR.scene.to (fun _ h => h) (fun _ _ => rfl) hgr.same, spans_one _⟩

theorem SheetBlockMade.inline (hm : ∀ c, isMark M c = true → 0x2768 ≤ c.toNat) (hE : EscapesHtml E) {es : List Elem} {ct : Content}
    (he : TagsOk M void Γ false es) (h : ContentWritable M (PathOk Γ) ct) :
    SheetBlockMade E D σ M names tagOf strOf ext void src L Γ Γ (tagsSource es ++ ' ' :: ct.source) []
      (fun ρ => if ρ.opens es ∧ ρ.shows ct then
        some [.part false false (around (fun n => (void n).getD false) ρ.env es (ct.html ρ.env))] else none) id := by
  intro d hd c hg hb
  let J := { p : Vars × Store P W // Situ E D σ tagOf void c.binds Γ p.1 p.2 ∧ p.1.shows ct = true }
  obtain ⟨hk, hn⟩ := content_known (names := names) (I := I) (J := J) (ρ := fun j => j.1.1) (B := fun j => j.1.2) h hb.binds (fun j => j.2.1) (fun j => j.2.2)
  obtain ⟨kd, t, l, l', h1, h2, h3, h5⟩ := content_read hm hE hk hn
  obtain ⟨s, s', k1, k2, k3, k4, k5, k6⟩ := tags_made (L := L) (D := D) (σ := σ) (E := E) (tagOf := tagOf) (strOf := strOf) (ext := ext) (src := src) (names := names)
    hm he hg hb (d := d) (t' := ' ' :: ct.source) (is := [])
    (body := .text (d + (tagsSource es).length + 1) [.line l]) (body' := .text (d + (tagsSource es).length + 1) [.line l']) (by simp)
    (fun k => by rw [h1]; exact .text (w := [' ']) (by simp [Blanks]) (.text (.some h2) .none))
    (by rw [analyse]; simp only [analyseItems, analyseItem, h3]; rfl) (.refl _)
  refine ⟨s, s', _, k1, k2, k3, k4, k5, fun ρ A xs hS hi ho => ?_⟩
  simp only [Option.ite_none_right_eq_some, Option.some.injEq] at ho
  obtain ⟨⟨hp, hp'⟩, rfl⟩ := ho
  have hev := h5 ⟨(ρ, A), hS.situ, hp'⟩ (A.ind σ) (d + (tagsSource es).length + 1) (by omega)
  simp only [A.setInd_self] at hev
  refine k6 ρ A [] _ hp hi (Shows.mono (Shows.text hev rfl) ?_) (by simp) (by simp)
  rintro _ _ ⟨rfl, rfl⟩
  exact ⟨.refl hS, by simp [shownAll, Entry.shown, Entry.full, addIndent]⟩

theorem SheetBlockMade.empty (hm : ∀ c, isMark M c = true → 0x2768 ≤ c.toNat) {es : List Elem} (he : TagsOk M void Γ true es) :
    SheetBlockMade E D σ M names tagOf strOf ext void src L Γ Γ (tagsSource es) []
      (fun ρ => if ρ.opens es then some [.part false false (around (fun n => (void n).getD false) ρ.env es [])] else none) id := by
  intro d hd c hg hb
  obtain ⟨s, s', k1, k2, k3, k4, k5, k6⟩ := tags_made (L := L) (D := D) (σ := σ) (E := E) (tagOf := tagOf) (strOf := strOf) (ext := ext) (src := src) (names := names)
    hm he hg hb (d := d) (t' := []) (is := []) (body := .body []) (body' := .body []) (by simp)
    (fun k => .plain .none) (by rw [analyse, analyseAll]; rfl) (.refl _)
  refine ⟨s, s', _, by simpa using k1, k2, k3, k4, k5, fun ρ A xs hS hi ho => ?_⟩
  simp only [Option.ite_none_right_eq_some, Option.some.injEq] at ho
  obtain ⟨hp, rfl⟩ := ho
  refine k6 ρ A [] _ hp hi (Shows.mono (Shows.nothing A) ?_) (by simp) (fun _ => rfl)
  rintro _ _ ⟨rfl, rfl⟩
  exact ⟨.refl hS, rfl⟩

/-! ### Bodies -/

theorem SheetBodyMade.body (hL : L.Sound σ) {inc : Str} (hb : Blanks inc) (hne : inc ≠ []) {is : List Item} (hi : is ≠ []) {out : Vars → Option (List Span)}
    (h : SheetMade E D σ M names tagOf strOf ext void src L Γ is out) : SheetBodyMade E D σ M names tagOf strOf ext void src L Γ inc is out := by
  intro c hg hbi
  obtain ⟨ss, ss', c', h1, h2, h3, h4⟩ := h c hg hbi
  refine ⟨bracket .indent .dedent inc ss, bracket .indent .dedent inc ss', c', fun k => .group hb hne hi (h1 _), ?_, h3,
    fun ρ A xs hS hI ho => ?_⟩
  · rw [analyse, analyse_bracket h2]; rfl
  · have hJ : (A.ind σ ++ inc).take 1 = ['\n'] := by
      cases hA : A.ind σ with
      | nil => rw [hA] at hI; simp at hI
      | cons d i => rw [hA] at hI; simpa using hI
    have p := h4 ρ (A.setInd σ (A.ind σ ++ inc)) xs (hS.setInd hL _) (by rw [Store.setInd_ind]; exact hJ) ho
    refine Shows.mono (Shows.group p (fun es B hB => by rw [hB.1.ind, Store.setInd_ind])) ?_
    rintro es _ ⟨B, rfl, hR, hc⟩
    refine ⟨⟨Store.setInd_ind _ _ _, hR.kept, hR.scene.setInd hL _, fun sl h1 h2 => ?_⟩, hc⟩
    have := hR.quiet sl h1 h2
    rw [Store.setInd_value] at this ⊢
    exact this

theorem SheetBlockMade.nested (hm : ∀ c, isMark M c = true → 0x2768 ≤ c.toNat) {es : List Elem} (he : TagsOk M void Γ false es)
    {inc : Str} (hbl : Blanks inc) {is : List Item} {out : Vars → Option (List Span)}
    (h : SheetBodyMade E D σ M names tagOf strOf ext void src L Γ inc is out) :
    SheetBlockMade E D σ M names tagOf strOf ext void src L Γ Γ (tagsSource es) [.group inc is]
      (fun ρ => if ρ.opens es then (out ρ).map (fun xs =>
        [.part false false (around (fun n => (void n).getD false) ρ.env es (spansText inc xs))]) else none) id := by
  intro d hd c hg hb
  obtain ⟨ss, ss', c', h1, h2, h3, h4⟩ := h { c with regular := c.regular + 1 } (hg.of rfl rfl (Nat.le_succ _)) hb
  obtain ⟨s, s', k1, k2, k3, k4, k5, k6⟩ := tags_made (L := L) (D := D) (σ := σ) (E := E) (tagOf := tagOf) (strOf := strOf) (ext := ext) (src := src) (names := names)
    hm he hg hb (d := d) (t' := []) (is := [.group inc is]) (by simp) (fun k => .plain (h1 _)) h2 h3.step
  refine ⟨s, s', _, by simpa using k1, k2, k3, k4, k5, fun ρ A xs hS hi ho => ?_⟩
  simp only [Option.ite_none_right_eq_some, Option.map_eq_some_iff] at ho
  obtain ⟨hp, xs', hxs, rfl⟩ := ho
  have hinc := blanks_oneLine hbl
  refine k6 ρ A inc _ hp hi (Shows.mono (h4 ρ A xs' hS hi hxs) ?_) hinc (by simp)
  rintro ns B ⟨hR, hc⟩
  exact ⟨hR, hc.shown inc hinc⟩

theorem SheetBlockMade.mixed (hL : L.Sound σ) (hm : ∀ c, isMark M c = true → 0x2768 ≤ c.toNat) (hE : EscapesHtml E) {es : List Elem} (he : TagsOk M void Γ false es)
    {ct : Content} (hct : ContentWritable M (PathOk Γ) ct) {inc : Str} (hbl : Blanks inc) (hne : inc ≠ []) {is : List Item} (his : is ≠ [])
    {out : Vars → Option (List Span)} (h : SheetMade E D σ M names tagOf strOf ext void src L Γ is out) :
    SheetBlockMade E D σ M names tagOf strOf ext void src L Γ Γ (tagsSource es ++ ':' :: ' ' :: ct.source) [.group inc is]
      (fun ρ => if ρ.opens es ∧ ρ.shows ct then (out ρ).map (fun xs =>
        [.part false false (around (fun n => (void n).getD false) ρ.env es (ct.html ρ.env ++ spansText inc xs))]) else none) id := by
  intro d hd c hg hb
  obtain ⟨ss, ss', c', h1, h2, h3, h4⟩ := h { c with regular := c.regular + 1 } (hg.of rfl rfl (Nat.le_succ _)) hb
  let J := { p : Vars × Store P W // Situ E D σ tagOf void c.binds Γ p.1 p.2 ∧ p.1.shows ct = true }
  obtain ⟨hk, -⟩ := content_known (names := names) (I := I) (J := J) (ρ := fun j => j.1.1) (B := fun j => j.1.2) hct hb.binds (fun j => j.2.1) (fun j => j.2.2)
  obtain ⟨l, l', f1, f2, f3⟩ := headline_read hm hE hk
  obtain ⟨s, s', k1, k2, k3, k4, k5, k6⟩ := tags_made (L := L) (D := D) (σ := σ) (E := E) (tagOf := tagOf) (strOf := strOf) (ext := ext) (src := src) (names := names)
    hm he hg hb (d := d) (t' := ':' :: ' ' :: ct.source) (is := [.group inc is]) (body := .body (.line l :: bracket .indent .dedent inc ss))
    (body' := .body (.line l' :: bracket .indent .dedent inc ss')) (c1 := c') (by simp)
    (fun k => .headline (w := []) (w' := [' ']) (ls := [l]) (by simp [Blanks]) (by simp [Blanks]) f1 (.group hbl hne his (h1 _)))
    (by
      rw [analyse, analyseAll]
      have e1 : analyse src (.line l : Stmt P) { c with regular := c.regular + 1 } = .ok (.line l', { c with regular := c.regular + 1 }) := by
        rw [analyse]
        show (analyseLine c.binds l >>= _) = _
        rw [f2]; rfl
      rw [e1]
      show ((analyseAll src (bracket .indent .dedent inc ss) { c with regular := c.regular + 1 } >>= _) >>= _) = _
      rw [analyse_bracket h2]; rfl) h3.step
  refine ⟨s, s', _, k1, k2, k3, k4, k5, fun ρ A xs hS hi ho => ?_⟩
  simp only [Option.ite_none_right_eq_some, Option.map_eq_some_iff] at ho
  obtain ⟨⟨hp, hp'⟩, xs', hxs, rfl⟩ := ho
  have hinc := blanks_oneLine hbl
  have hev := f3 ⟨(ρ, A), hS.situ, hp'⟩ (A.ind σ)
  simp only [A.setInd_self] at hev
  have hJ : (A.ind σ ++ inc).take 1 = ['\n'] := by
    cases hA : A.ind σ with
    | nil => rw [hA] at hi; simp at hi
    | cons d i => rw [hA] at hi; simpa using hi
  have p := h4 ρ (A.setInd σ (A.ind σ ++ inc)) xs' (hS.setInd hL _) (by rw [Store.setInd_ind]; exact hJ) hxs
  refine k6 ρ A inc _ hp hi (Shows.mono (Shows.headed hev p (fun es B hB => by rw [hB.1.ind, Store.setInd_ind])) ?_) hinc (by simp)
  rintro _ _ ⟨es, B, rfl, rfl, hR, hc⟩
  refine ⟨⟨Store.setInd_ind _ _ _, hR.kept, hR.scene.setInd hL _, fun sl h1 h2 => ?_⟩, ?_⟩
  · have := hR.quiet sl h1 h2
    rw [Store.setInd_value] at this ⊢
    exact this
  · show Entry.shown inc ⟨false, .bare, ct.html ρ.env⟩ ++ shownAll inc es = _
    rw [hc.shown inc hinc]
    rfl

/-! ### Conditions -/

theorem SheetElseMade.none : SheetElseMade E D σ M names tagOf strOf ext void src L Γ [] (fun _ => some []) := by
  intro c hg hb
  refine ⟨[], [], [], .none, [], .none, c, c, rfl, fun _ => .nil, fun _ => .none, by rw [analyseClauses]; rfl, by rw [analyseElse]; rfl,
    .refl hg, fun ρ A xs hS _ ho => ?_⟩
  cases ho
  refine ⟨[], ?_⟩
  rw [translIf, translOpt]
  exact Makes.nil _ A ⟨[], .nil, .refl hS, .nil⟩

theorem SheetElseMade.els {m : Nat} {inc : Str} {is : List Item} {out : Vars → Option (List Span)}
    (h : SheetBodyMade E D σ M names tagOf strOf ext void src L Γ inc is out) :
    SheetElseMade E D σ M names tagOf strOf ext void src L Γ [.line m (s!!"else"), .group inc is] out := by
  intro c hg hb
  obtain ⟨ss, ss', c', h1, h2, h3, h4⟩ := h c hg hb
  refine ⟨[], _, [], some (.elseClause (some (.body ss))), [], some (.elseClause (some (.body ss'))), c, c.mergeBranch c', rfl, fun _ => .nil,
    fun k => .some (.body (t := []) (.body (.plain .none (h1 _) (by simp)))), by rw [analyseClauses]; rfl, ?_, h3.merge hg hb,
    fun ρ A xs hS hi ho => ?_⟩
  · rw [analyseElse, analyse, analyseOpt, h2]; rfl
  · have p1 := h4 ρ A xs hS hi ho
    refine ⟨A.ind σ ++ inc, ?_⟩
    have e : translIf E σ [] (translOpt E σ (some (.elseClause (some (.body ss'))))) = nodesBy E σ (.body ss') := by
      rw [translIf, translOpt, transl, translOpt]
      show ((((nodesBy E σ (.body ss')) >>= fun ns => pure (some ns)) >>= _) : Comp P X W (List Ref)) = _
      exact nodesBy_some _
    rw [e]
    rw [merge_next]
    exact p1

/-- A clause with a condition. -/
theorem sheetClause_made {x : Test} (hx : TestOk Γ x) {inc : Str} {is rest : List Item} {out out' : Vars → Option (List Span)}
    (h : SheetBodyMade E D σ M names tagOf strOf ext void src L Γ inc is out)
    (h' : SheetElseMade E D σ M names tagOf strOf ext void src L Γ rest out') (c : Ctx) (hg : c.Good L) (hb : Bound L Γ void c.binds) :
    ∃ js ls e b cls els cls' els' c1 c', rest = js ++ ls ∧
    (∀ k d, Spec.Clause M names k d (' ' :: x.source) [.group inc is] e (some b)) ∧ (∀ k, Spec.Elifs M names k js cls) ∧
    (∀ k, Spec.MaybeElse M names k ls els) ∧ analyseClauses src ((e, some b) :: cls) c = .ok (cls', c1) ∧
    analyseElse src els c1 = .ok (els', c') ∧ Grows L Γ void c c' ∧
    ∀ ρ A xs, Scene E D σ tagOf void L c.binds Γ ρ [] A → (A.ind σ).take 1 = ['\n'] →
      (x.value ρ).bind (fun t => if t then out ρ else out' ρ) = some xs →
      ∃ J, Makes tagOf strOf .none (translIf E σ cls' (translOpt E σ els')) A
        (RunsSpans E D σ tagOf ext void L c'.next c.binds Γ ρ A J xs) := by
  obtain ⟨e, e', t1, t2, t3⟩ := test_reads (M := M) (names := names) (E := E) (D := D) (σ := σ) (tagOf := tagOf) (I := I) hx hb.binds
  obtain ⟨ss, ss', c1, h1, h2, h3, h4⟩ := h c hg hb
  have hm := h3.merge hg hb
  obtain ⟨js, ls, cls, els, cls', els', c2, c3, g1, g2, g3, g4, g5, g6, g7⟩ := h' (c.mergeBranch c1) hm.good (hm.bound hb)
  refine ⟨js, ls, e, .body ss, cls, els, (e', some (.body ss')) :: cls', els', c2, c3, g1,
    fun k d => t1 k d _ _ (.plain .none (h1 _) (by simp)), g2, g3, ?_, g5, hm.trans g6 (fun _ h => h),
    fun ρ A xs hS hi ho => ?_⟩
  · rw [analyseClauses, analyseClause, t2]
    show ((analyseOpt src (some (.body ss)) c >>= _) >>= _) = _
    rw [analyseOpt, h2]
    show (analyseClauses src cls (c.mergeBranch c1) >>= _) = _
    rw [g4]; rfl
  · simp only [Option.bind_eq_some_iff] at ho
    obtain ⟨t, ht, ho⟩ := ho
    have hev := t3 ρ A t hS.situ ht
    have e1 : translIf E σ ((e', some (.body ss')) :: cls') (translOpt E σ els') =
        ((eval E σ e' >>= truthOf E) >>= fun b => if b then nodesBy E σ (.body ss') else translIf E σ cls' (translOpt E σ els')) := by
      rw [translIf, Comp.bind_assoc, translBranch, translOpt]
      rfl
    rw [e1]
    cases t with
    | true =>
      refine ⟨A.ind σ ++ inc, Makes.eval hev (Makes.mono (h4 ρ A xs hS hi ho) ?_)⟩
      rintro ns B ⟨es, p1, p2, p3⟩
      have := g6.step.next
      rw [merge_next] at this
      exact ⟨es, p1, p2.grow this, p3⟩
    | false =>
      obtain ⟨J, p⟩ := g7 ρ A xs (hS.to (fun _ h => h) (fun _ _ => rfl) hm.same) hi ho
      refine ⟨J, Makes.eval hev (p.mono ?_)⟩
      rintro ns B ⟨es, p1, p2, p3⟩
      exact ⟨es, p1, p2.to (fun sym hs => (hm.same sym hs).symm), p3⟩

theorem SheetElseMade.elif {m : Nat} {x : Test} (hx : TestOk Γ x) {inc : Str} {is rest : List Item} {out out' : Vars → Option (List Span)}
    (h : SheetBodyMade E D σ M names tagOf strOf ext void src L Γ inc is out)
    (h' : SheetElseMade E D σ M names tagOf strOf ext void src L Γ rest out') :
    SheetElseMade E D σ M names tagOf strOf ext void src L Γ (.line m (s!!"elif " ++ x.source) :: .group inc is :: rest)
      (fun ρ => (x.value ρ).bind (fun t => if t then out ρ else out' ρ)) := by
  intro c hg hb
  obtain ⟨js, ls, e, b, cls, els, cls', els', c1, c', g1, g2, g3, g4, g5⟩ := sheetClause_made hx h h' c hg hb
  subst g1
  exact ⟨.line m (s!!"elif " ++ x.source) :: ([.group inc is] ++ js), ls, (e, some b) :: cls, els, cls', els', c1, c', by simp,
    fun k => .cons (t := ' ' :: x.source) (g2 _ _) (g3 _), g4, g5⟩

theorem SheetBlockMade.cond {x : Test} (hx : TestOk Γ x) {inc : Str} {is rest : List Item} {out out' : Vars → Option (List Span)}
    (h : SheetBodyMade E D σ M names tagOf strOf ext void src L Γ inc is out)
    (h' : SheetElseMade E D σ M names tagOf strOf ext void src L Γ rest out') :
    SheetBlockMade E D σ M names tagOf strOf ext void src L Γ Γ (s!!"if " ++ x.source) (.group inc is :: rest)
      (fun ρ => (x.value ρ).bind (fun t => (if t then out ρ else out' ρ).map (List.map Span.atLevel))) id := by
  intro d hd c hg hb
  obtain ⟨js, ls, e, b, cls, els, cls', els', c1, c', g1, g2, g3, g4, g5, g6, g7, g8⟩ :=
    sheetClause_made hx h h' { c with control := c.control + 1 } (hg.of rfl rfl (Nat.le_refl _)) hb
  subst g1
  have hgr : Grows L Γ void c { c' with control := c.control } := ⟨step_control g7.step, g7.good.of rfl rfl (Nat.le_refl _), g7.same⟩
  refine ⟨.ifBlock ((e, some b) :: cls) els, .ifBlock cls' els', { c' with control := c.control },
    fun k => .ifBlock (t := ' ' :: x.source) (is := [.group inc is]) (g2 _ _) (g3 _) (g4 _), .inr (fun _ => rfl), ?_, hgr, hgr.bound hb,
    fun ρ A xs hS hi ho => ?_⟩
  · rw [analyse, g5]
    show (analyseElse src els c1 >>= _) = _
    rw [g6]; rfl
  · have ho' : ∃ xs', (x.value ρ).bind (fun t => if t then out ρ else out' ρ) = some xs' ∧ xs'.map Span.atLevel = xs := by
      simp only [Option.bind_eq_some_iff, Option.map_eq_some_iff] at ho
      obtain ⟨t, h1, xs', h2, h3⟩ := ho
      exact ⟨xs', by rw [h1]; exact h2, h3⟩
    clear ho
    obtain ⟨xs', ho, rfl⟩ := ho'
    obtain ⟨J, p⟩ := g8 ρ A xs' hS hi ho
    refine Shows.mono (Shows.control (c := translIf E σ cls' (translOpt E σ els')) ?_ p (fun _ _ h => h.1.ind)) ?_
    case refine_2 =>
      rintro _ B ⟨es, rfl, p2, p3⟩
      exact ⟨p2, p2.scene.to (fun _ h => h) (fun _ _ => rfl) hgr.same, p3.level⟩
    unfold nodesBy
    rw [transl]
    simp only [Comp.bind_assoc, withIndent]
    rfl

/-! ### Loops -/

theorem sheetLoop_made (hL : L.Sound σ) {b : List (Str × SlotInfo)} {ρ : Vars} {n : Slot} {i J : Str} {it : Val P}
    {step : Val P → Comp P X W (List Ref)} {out : Data → Option (List Span)}
    (hstep : ∀ x d A xs, D.rep x d → Scene E D σ tagOf void L b Γ ρ [] A → A.ind σ = i → out d = some xs →
      Makes tagOf strOf .none (step x) A (RunsSpans E D σ tagOf ext void L n b Γ ρ A J xs))
    (ps : List (Val P × Data)) (hps : ∀ p ∈ ps, D.rep p.1 p.2) (k : Nat) (hk : ps.length < k) (A : Store P W)
    (hp : D.pending A.world it (ps.map Prod.fst)) (hS : Scene E D σ tagOf void L b Γ ρ [] A) (hi : A.ind σ = i) (xs : List Span)
    (ho : collectSpans (ps.map (fun p => out p.2)) = some xs) :
    Makes tagOf strOf .none (forLoop (runPy E (E.ops.next it)) step k [] true >>= fun r => pure r.1) A (fun ns B => ∃ es, Dens ext J ns es ∧
      B.ind σ = i ∧ (∀ it' l, it' ≠ it → D.pending A.world it' l → D.pending B.world it' l) ∧ Scene E D σ tagOf void L b Γ ρ [] B ∧
      Quiet σ L n A B ∧ Spans es xs) := by
  induction ps generalizing k A xs with
  | nil =>
    cases k with
    | zero => exact absurd hk (Nat.lt_irrefl _)
    | succ k =>
      obtain ⟨w', h1, h2, h3⟩ := D.next hp
      simp only [List.map_nil, collectSpans, Option.some.injEq] at ho
      subst ho
      simp only [forLoop, Comp.bind_assoc]
      refine Makes.eval (runPy_evals h1) ?_
      simp only [List.map_nil, List.head?_nil, Comp.pure_bind]
      exact Makes.nil _ _ ⟨[], .nil, hi, h3, hS.world hL w', fun _ _ _ => rfl, .nil⟩
  | cons p ps ih =>
    cases k with
    | zero => exact absurd hk (by simp)
    | succ k =>
      obtain ⟨w', h1, h2, h3⟩ := D.next hp
      rw [List.map_cons] at ho
      cases ho1 : out p.2 with
      | none => rw [ho1] at ho; simp [collectSpans] at ho
      | some xs1 =>
        rw [ho1] at ho
        simp only [collectSpans, Option.map_eq_some_iff] at ho
        obtain ⟨xs2, ho2, rfl⟩ := ho
        have p1 := hstep p.1 p.2 { A with world := w' } xs1 (hps p (List.mem_cons_self ..)) (hS.world hL w') hi ho1
        simp only [forLoop, Comp.bind_assoc]
        refine Makes.eval (runPy_evals h1) ?_
        simp only [List.map_cons, List.head?_cons, Comp.bind_assoc, List.nil_append]
        have e : (fun ns => forLoop (runPy E (E.ops.next it)) step k ns false >>= fun r => pure r.1) =
            fun ns => ((forLoop (runPy E (E.ops.next it)) step k [] true >>= fun r => pure r.1) >>= fun rs => pure (ns ++ rs)) := by
          funext ns
          exact forLoop_out _ _ k ns false true
        rw [e]
        refine Makes.append (.inl ⟨rfl, rfl⟩) p1 ?_
        rintro x A1 ⟨es1, hd1, hR, hc1⟩
        refine (ih (fun x hx => hps x (List.mem_cons_of_mem _ hx)) k (by simp at hk; omega) A1
          (hR.kept _ _ (by simpa using h2)) hR.scene (hR.ind.trans hi) xs2 ho2).mono ?_
        rintro y B ⟨es2, hd2, q2, q3, q4, q5, q6⟩
        exact ⟨es1 ++ es2, hd1.append hd2, q2, fun it' l hne hl => q3 _ _ hne (hR.kept _ _ (h3 _ _ hne hl)), q4,
          Quiet.trans (A := { A with world := w' }) hR.quiet q5 (Nat.le_refl _), hc1.append q6⟩

theorem collectSpans_map {α β : Type} (f : α → β) (g : β → Option (List Span)) (l : List α) :
    collectSpans (l.map (fun a => g (f a))) = collectSpans ((l.map f).map g) := by rw [List.map_map]; rfl

theorem SheetBlockMade.loop (hL : L.Sound σ) {v x inc : Str} (hx : PathOk Γ x) (hv : VarName v) (hn : ¬ Γ v) (hbv : L.bv ≠ some v) {is : List Item} {out : Vars → Option (List Span)}
    (h : SheetBodyMade E D σ M names tagOf strOf ext void src L (fun y => y = v ∨ Γ y) inc is out) :
    SheetBlockMade E D σ M names tagOf strOf ext void src L Γ Γ (s!!"for " ++ (v ++ (s!!" in " ++ x))) [.group inc is]
      (fun ρ => (eachSpan (fun d => out (ρ.set v d)) (ρ.value x)).map (List.map Span.atLevel)) id := by
  intro d hd c hg hb
  let c0 : Ctx := { c with control := c.control + 1 }
  have hg0 : c0.Good L := hg.of rfl rfl (Nat.le_refl _)
  obtain ⟨e, e', t1, t2, t3⟩ := path_reads (M := M) (names := names) (E := E) (D := D) (σ := σ) (tagOf := tagOf) (I := I) hx hb.binds
  obtain ⟨s, c1, w1, w2, w3, w4⟩ := writeSlot_new (I := I) (void := void) hg0 hb hv.toName hn hbv
  have hb1 := (w2.bound hb).add w3
  obtain ⟨ss, ss', c2, h1, h2, h3, h4⟩ := h c1 w2.good hb1
  have hg2 := w2.trans h3 (fun _ h => .inr h)
  have hgr : Grows L Γ void c { c2 with control := c.control } := ⟨step_control hg2.step, hg2.good.of rfl rfl (Nat.le_refl _), hg2.same⟩
  refine ⟨.forBlock (.many [.var v false .none .none]) (.root .none e) [.body ss],
    .forBlock (.many [.var v false .none (some s.id)]) (.root .none e') [.body ss'], { c2 with control := c.control }, fun k => ?_,
    .inr (fun _ => rfl), ?_, hgr, hgr.bound hb, fun ρ A xs hS hi ho => ?_⟩
  · have hl : ∀ k d, Spec.Loop M names k d (x ++ []) [.group inc is] (.root .none e) [.body ss] :=
      fun k d => .factor t1 (by simp) (.body (.plain .none (h1 _) (by simp)))
    have := Spec.Block.forBlock (k := k) (c := d) (w := [' ']) (w1 := [' ']) (w2 := [' ']) (t := v) (t' := x ++ []) (is := [.group inc is]) (ls := [])
      (els := .none) (by simp [Blanks]) (by simp) (.one (.var hv.toName)) (by simp [Blanks]) (by simp) (by simp [Blanks]) (by simp) (hl _ _) .none
    simpa using this
  · rw [analyse]
    have t2' : analyseExpr (I := I) c0.binds (.root .none e) = .ok (.root .none e') := by
      rw [analyseExpr]
      have : analyseExpr (I := I) c0.binds e = .ok e' := t2
      rw [this]; rfl
    show (analyseExpr c0.binds (.root .none e) >>= _) = _
    rw [t2']
    show (analyseTarget _ c0 >>= _) = _
    rw [analyse_var w1]
    show (analyseFirst src [.body ss] c1 >>= _) = _
    rw [analyseFirst, h2]
    rfl
  · have ho' : ∃ ds xs', ρ.value x = some (.list ds) ∧ collectSpans (ds.map (fun d => out (ρ.set v d))) = some xs' ∧ xs'.map Span.atLevel = xs := by
      rw [Option.map_eq_some_iff] at ho
      obtain ⟨xs', h1, h2⟩ := ho
      unfold eachSpan at h1
      split at h1
      · rename_i ds hd
        exact ⟨ds, xs', hd, h1, h2⟩
      · simp at h1
    clear ho
    obtain ⟨ds, xs', hd, ho, rfl⟩ := ho'
    obtain ⟨xv, g1, g2⟩ := t3 ρ A _ hS.situ hd
    obtain ⟨hlen, ps, hps, hrep, hit⟩ := D.iter g1
    obtain ⟨it, w', i1, i2, i3⟩ := hit A.world
    subst hps
    have hstep : ∀ (y : Val P) (d : Data) (B : Store P W) (xs : List Span), D.rep y d → Scene E D σ tagOf void L c.binds Γ ρ [] B → B.ind σ = A.ind σ →
        out (ρ.set v d) = some xs → Makes tagOf strOf .none
          (assignTarget E σ (.many [.var v false .none (some s.id)]) y >>= fun _ => nodesBy E σ (.body ss')) B
          (RunsSpans E D σ tagOf ext void L c2.next c.binds Γ ρ B (A.ind σ ++ inc) xs) := by
      intro y d B xs hy hSB hiB hcs
      obtain ⟨a1, a2, a3⟩ := hSB.assigned hL hn hbv w2.good w3 w4 w2.same hy
      have p1 := h4 (ρ.set v d) (B.setVar σ s.id y) xs a1 (by rw [Store.setVar_ind, hiB]; exact hi) hcs
      refine Makes.eval (assign_var B v s.id y) ?_
      unfold Shows at p1
      rw [Store.setVar_ind, hiB] at p1
      refine p1.mono ?_
      rintro ns B' ⟨es, hd, hR, hc⟩
      refine ⟨es, hd, ⟨hR.ind.trans (Store.setVar_ind _ _ _), hR.kept, ?_, a3.trans hR.quiet h3.step.next⟩, hc⟩
      refine hR.scene.to (fun _ h => .inr h) (fun y hy => ?_) (fun sym hs => (w2.same sym hs).symm)
      unfold Vars.set
      rw [if_neg]
      rintro rfl
      exact hn hy
    have q1 := sheetLoop_made hL hstep ps hrep E.fuel (by simpa using hlen) { A with world := w' } i2 (hS.world hL w') rfl xs'
      (by rw [collectSpans_map Prod.snd (fun d => out (ρ.set v d))]; exact ho)
    refine Shows.mono (Shows.control (c := eval E σ (.root .none e') >>= fun sq => runPy E (E.ops.iter sq) >>= fun it =>
        forLoop (runPy E (E.ops.next it)) (fun y => assignTarget E σ (.many [.var v false .none (some s.id)]) y >>= fun _ => nodesBy E σ (.body ss'))
          E.fuel [] true >>= fun r => pure r.1) ?_ (Makes.eval ?_ (Makes.eval (runPy_evals i1) q1)) (fun _ _ h => h.1)) ?_
    case refine_3 =>
      rintro _ B ⟨es, rfl, q2, q3, q4, q5, q6⟩
      exact ⟨⟨q2, fun it' l hl => q3 it' l (i3 it' l hl).1 (i3 it' l hl).2, q4, q5⟩, q4.to (fun _ h => h) (fun _ _ => rfl) hgr.same, q6.level⟩
    · unfold nodesBy
      rw [transl]
      have e1 : lastElse [Stmt.body ss'] (translEach E σ [.body ss']) = .none := rfl
      have e2 : ∀ r : List Ref × Bool, (loopResult r .none : Comp P X W (List Ref)) = pure r.1 := by
        rintro ⟨r, b⟩; cases b <;> rfl
      have e3 : optBranch (translEach E σ [Stmt.body ss']).head? = nodesBy E σ (.body ss') := by
        rw [translEach]; rfl
      simp only [e1, e2, e3, Comp.bind_assoc, withIndent, Comp.pure_bind]
      rfl
    · have g3 := g2 (A.ind σ)
      rw [A.setInd_self] at g3
      rw [eval]
      exact qualified_rep g3 g1

/-! ### Assignments -/

theorem SheetBlockMade.set (hL : L.Sound σ) (hm : ∀ c, isMark M c = true → 0x2768 ≤ c.toNat) {v : Str} {g : Given} (hgv : GivenOk M Γ g) (hv : VarName v) (hn : ¬ Γ v)
    (hbv : L.bv ≠ some v) :
    SheetBlockMade E D σ M names tagOf strOf ext void src L Γ (fun y => y = v ∨ Γ y) (s!!"$ " ++ (v ++ (s!!" = " ++ g.source))) []
      (fun ρ => if (g.value ρ).isSome then some [] else .none) (fun ρ => match g.value ρ with | some d => ρ.set v d | .none => ρ) := by
  intro d hd c hg hb
  obtain ⟨e, e', t1, t2, t3⟩ := given_reads (M := M) (names := names) (E := E) (D := D) (σ := σ) (tagOf := tagOf) (I := I) hm hgv hb.binds
  obtain ⟨s, c1, w1, w2, w3, w4⟩ := writeSlot_new (I := I) (void := void) hg hb hv.toName hn hbv
  have hb1 := (w2.bound hb).add w3
  refine ⟨.assign (.many [.var v false .none .none]) .none (.root .none e), .assign (.many [.var v false .none (some s.id)]) .none e', c1,
    fun k => ?_, .inr (fun _ => rfl), ?_, w2, hb1, fun ρ A xs hS hi ho => ?_⟩
  · have := Spec.Block.assign (k := k) (c := d) (w := [' ']) (w1 := [' ']) (w2 := [' ']) (t := v) (x := g.source) (r := [])
      (M := M) (names := names) (P := P) (by simp [Blanks]) (.one (.var hv.toName)) (by simp [Blanks]) (by simp [Blanks]) (.one (t1.upTo (by omega) (by omega))) .none
    simpa using this
  · rw [analyse, t2]
    show (analyseTarget _ c >>= _) = _
    rw [analyse_var w1]
    rfl
  · simp only [Option.ite_none_right_eq_some, Option.some.injEq] at ho
    obtain ⟨hs, rfl⟩ := ho
    obtain ⟨d, hd⟩ := Option.isSome_iff_exists.1 hs
    obtain ⟨y, g1, g2⟩ := t3 ρ A d hS.situ hd
    obtain ⟨a1, a2, a3⟩ := hS.assigned hL hn hbv w2.good w3 w4 w2.same g1
    refine Shows.mono (Shows.none (o := .none) (A' := A.setVar σ s.id y) [] ?_ rfl) ?_
    case refine_2 =>
      rintro _ _ ⟨rfl, rfl⟩
      exact ⟨⟨Store.setVar_ind _ _ _, fun _ _ h => h, a2, a3⟩, by simp only [hd]; exact a1, .nil⟩
    rw [transl]
    refine Evals.bind g2 ?_
    simp only [inplace, Comp.pure_bind]
    exact Evals.bind (assign_var A v s.id y) (Evals.pure _ _)

/-! ### Templates -/

theorem sheet_scope_sub (b : SheetBlock) (Γ : Str → Prop) (y : Str) (h : Γ y) : b.scope Γ y := by
  cases b <;> first | exact h | exact .inr h

theorem sheet_after_same {b : SheetBlock} (h : b.Ok M void Γ) (ρ : Vars) (y : Str) (hy : Γ y) : b.after ρ y = ρ y := by
  cases b <;> try rfl
  rename_i v g
  simp only [SheetBlock.after]
  cases g.value ρ with
  | none => rfl
  | some d =>
    show Vars.set ρ v d y = _
    unfold Vars.set
    rw [if_neg]
    rintro rfl
    rw [SheetBlock.Ok] at h
    exact h.2.2 hy

section
variable (hL : L.Sound σ) (hbv : L.bv = none) (hm : ∀ c, isMark M c = true → 0x2768 ≤ c.toNat) (hE : EscapesHtml E)
include hL hbv hm hE

set_option linter.unusedSectionVars false in
mutual
theorem Sheet.made : ∀ (T : Sheet) (Γ : Str → Prop), T.Ok M void Γ →
    SheetMade E D σ M names tagOf strOf ext void src L Γ T.items (T.out (fun n => (void n).getD false))
  | .nil, Γ, h => by
    have : Sheet.out (fun n => (void n).getD false) .nil = fun _ => some [] := by funext ρ; rw [Sheet.out]
    rw [this, Sheet.items]
    exact .nil
  | .cons m mo b rest, Γ, h => by
    rw [Sheet.Ok] at h
    have e : Sheet.out (fun n => (void n).getD false) (.cons m mo b rest) = fun ρ => (b.out (fun n => (void n).getD false) ρ).bind (fun a =>
        (rest.out (fun n => (void n).getD false) (b.after ρ)).map (fun r => blank m ++ (modify mo a ++ r))) := by funext ρ; rw [Sheet.out]
    rw [e, Sheet.items]
    exact .cons (SheetBlock.made b Γ h.1) (Sheet.made rest _ h.2) (sheet_scope_sub b Γ) (sheet_after_same h.1)
theorem SheetBlock.made : ∀ (b : SheetBlock) (Γ : Str → Prop), b.Ok M void Γ →
    SheetBlockMade E D σ M names tagOf strOf ext void src L Γ (b.scope Γ) b.source b.under (b.out (fun n => (void n).getD false)) (fun ρ => b.after ρ)
  | .text c, Γ, h => by
    rw [SheetBlock.Ok] at h
    have e : SheetBlock.out (fun n => (void n).getD false) (.text c) = fun ρ => if ρ.shows c then some [.part false false (c.html ρ.env)] else none := by
      funext ρ; rw [SheetBlock.out]
    rw [e, SheetBlock.under]
    · exact .text hm hE h
    all_goals simp
  | .inline es c, Γ, h => by
    rw [SheetBlock.Ok] at h
    have e : SheetBlock.out (fun n => (void n).getD false) (.inline es c) = fun ρ => if ρ.opens es ∧ ρ.shows c then
        some [.part false false (around (fun n => (void n).getD false) ρ.env es (c.html ρ.env))] else none := by
      funext ρ; rw [SheetBlock.out]
    rw [e, SheetBlock.under]
    · exact .inline hm hE h.1 h.2
    all_goals simp
  | .empty es, Γ, h => by
    rw [SheetBlock.Ok] at h
    have e : SheetBlock.out (fun n => (void n).getD false) (.empty es) = fun ρ => if ρ.opens es then
        some [.part false false (around (fun n => (void n).getD false) ρ.env es [])] else none := by
      funext ρ; rw [SheetBlock.out]
    rw [e, SheetBlock.under]
    · exact .empty hm h
    all_goals simp
  | .nested es inc body, Γ, h => by
    rw [SheetBlock.Ok] at h
    have e : SheetBlock.out (fun n => (void n).getD false) (.nested es inc body) = fun ρ => if ρ.opens es then
        (body.out (fun n => (void n).getD false) ρ).map (fun xs => [.part false false (around (fun n => (void n).getD false) ρ.env es (spansText inc xs))])
        else none := by
      funext ρ; rw [SheetBlock.out]
    rw [e, SheetBlock.under]
    exact .nested hm h.1 h.2.1 (.body hL h.2.1 h.2.2.1 h.2.2.2.1 (Sheet.made body _ h.2.2.2.2))
  | .mixed es c inc body, Γ, h => by
    rw [SheetBlock.Ok] at h
    have e : SheetBlock.out (fun n => (void n).getD false) (.mixed es c inc body) = fun ρ => if ρ.opens es ∧ ρ.shows c then
        (body.out (fun n => (void n).getD false) ρ).map (fun xs =>
          [.part false false (around (fun n => (void n).getD false) ρ.env es (c.html ρ.env ++ spansText inc xs))]) else none := by
      funext ρ; rw [SheetBlock.out]
    rw [e, SheetBlock.under]
    exact .mixed hL hm hE h.1 h.2.1 h.2.2.1 h.2.2.2.1 h.2.2.2.2.1 (Sheet.made body _ h.2.2.2.2.2)
  | .comment s, Γ, h => by
    rw [SheetBlock.Ok] at h
    have e : SheetBlock.out (fun n => (void n).getD false) (.comment s) = fun _ => some [] := by funext ρ; rw [SheetBlock.out]
    rw [e, SheetBlock.under]
    · exact .comment h
    all_goals simp
  | .pass, Γ, h => by
    have e : SheetBlock.out (fun n => (void n).getD false) .pass = fun _ => some [] := by funext ρ; rw [SheetBlock.out]
    rw [e, SheetBlock.under]
    · exact .pass
    all_goals simp
  | .cond x inc body more, Γ, h => by
    rw [SheetBlock.Ok] at h
    have e : SheetBlock.out (fun n => (void n).getD false) (.cond x inc body more) = fun ρ => (x.value ρ).bind (fun t =>
        (if t then body.out (fun n => (void n).getD false) ρ else more.out (fun n => (void n).getD false) ρ).map (List.map Span.atLevel)) := by
      funext ρ; rw [SheetBlock.out]
    rw [e, SheetBlock.under]
    exact .cond h.1 (.body hL h.2.1 h.2.2.1 h.2.2.2.1 (Sheet.made body _ h.2.2.2.2.1)) (SheetElse.made more _ h.2.2.2.2.2)
  | .loop v x inc body, Γ, h => by
    rw [SheetBlock.Ok] at h
    have e : SheetBlock.out (fun n => (void n).getD false) (.loop v x inc body) = fun ρ =>
        (eachSpan (fun d => body.out (fun n => (void n).getD false) (ρ.set v d)) (ρ.value x)).map (List.map Span.atLevel) := by
      funext ρ; rw [SheetBlock.out]
    rw [e, SheetBlock.under]
    exact .loop hL h.1 h.2.1 h.2.2.1 (by rw [hbv]; simp) (.body hL h.2.2.2.1 h.2.2.2.2.1 h.2.2.2.2.2.1 (Sheet.made body _ h.2.2.2.2.2.2))
  | .set v g, Γ, h => by
    rw [SheetBlock.Ok] at h
    have e : SheetBlock.out (fun n => (void n).getD false) (.set v g) = fun ρ => if (g.value ρ).isSome then some [] else none := by
      funext ρ; rw [SheetBlock.out]
    rw [e, SheetBlock.under]
    · exact .set hL hm h.1 h.2.1 h.2.2 (by rw [hbv]; simp)
    all_goals simp
theorem SheetElse.made : ∀ (b : SheetElse) (Γ : Str → Prop), b.Ok M void Γ →
    SheetElseMade E D σ M names tagOf strOf ext void src L Γ b.items (b.out (fun n => (void n).getD false))
  | .none, Γ, h => by
    have e : SheetElse.out (fun n => (void n).getD false) .none = fun _ => some [] := by funext ρ; rw [SheetElse.out]
    rw [e, SheetElse.items]
    exact .none
  | .els m inc body, Γ, h => by
    rw [SheetElse.Ok] at h
    have e : SheetElse.out (fun n => (void n).getD false) (.els m inc body) = body.out (fun n => (void n).getD false) := by funext ρ; rw [SheetElse.out]
    rw [e, SheetElse.items]
    exact .els (.body hL h.1 h.2.1 h.2.2.1 (Sheet.made body _ h.2.2.2))
  | .elif m x inc body more, Γ, h => by
    rw [SheetElse.Ok] at h
    have e : SheetElse.out (fun n => (void n).getD false) (.elif m x inc body more) = fun ρ => (x.value ρ).bind (fun t =>
        if t then body.out (fun n => (void n).getD false) ρ else more.out (fun n => (void n).getD false) ρ) := by
      funext ρ; rw [SheetElse.out]
    rw [e, SheetElse.items]
    exact .elif h.1 (.body hL h.2.1 h.2.2.1 h.2.2.2.1 (Sheet.made body _ h.2.2.2.2.1)) (SheetElse.made more _ h.2.2.2.2.2)
end

end
end
end Verif
