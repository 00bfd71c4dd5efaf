import Verif.Lemmas.Makes
import Verif.Spec.Scripts

/-! The output of statements, as a list of texts with their places. -/

namespace Verif
open Py Spec

section
variable {P X W : Type} (E : Env P X W) (σ : StateId) (tagOf : P → TagObj) (strOf : Val P → Str)
  (ext : Nat → Except RenderErr Str → List AttrVal → List (Str × AttrVal) → Except RenderErr Str)

/-- The current indentation. -/
def Store.ind (A : Store P W) (σ : StateId) : Str := (A.states σ).indentation

/-- Change the current indentation. -/
def Store.setInd (A : Store P W) (σ : StateId) (ind : Str) : Store P W :=
  { A with states := fun τ => if τ = σ then { A.states τ with indentation := ind } else A.states τ }

theorem Store.setInd_ind (A : Store P W) (σ : StateId) (ind : Str) : (A.setInd σ ind).ind σ = ind := by simp [Store.setInd, Store.ind]

theorem Store.setInd_self (A : Store P W) (σ : StateId) : A.setInd σ (A.ind σ) = A := by
  unfold Store.setInd Store.ind
  congr 1
  funext τ
  split
  · rename_i h; subst h; rfl
  · rfl

theorem Store.setInd_setInd (A : Store P W) (σ : StateId) (i j : Str) : (A.setInd σ i).setInd σ j = A.setInd σ j := by
  unfold Store.setInd
  congr 1
  funext τ
  by_cases h : τ = σ <;> simp [h]

/-- The statement outputs entries, at the current indentation with `inc`; these and the store have the property `Z`. -/
def Shows (H : Hand) (s : Stmt P) (A : Store P W) (inc : Str) (Z : List Entry → Store P W → Prop) : Prop :=
  Makes tagOf strOf H (nodesBy E σ s) A (fun ns B => ∃ es, Dens ext (A.ind σ ++ inc) ns es ∧ Z es B)

/-- The same for a list of statements. -/
def ShowsAll (H : Hand) (ss : List (Stmt P)) (A : Store P W) (inc : Str) (Z : List Entry → Store P W → Prop) : Prop :=
  Makes tagOf strOf H (translAll E σ ss) A (fun ns B => ∃ es, Dens ext (A.ind σ ++ inc) ns es ∧ Z es B)

variable {E σ tagOf strOf ext}

theorem curIndent_evals (A : Store P W) : Evals (curIndent σ : Comp P X W Str) A (A.ind σ) A := by
  rintro M rfl; rfl

theorem Shows.mono {H : Hand} {s : Stmt P} {A : Store P W} {inc : Str} {Z Z' : List Entry → Store P W → Prop}
    (h : Shows E σ tagOf strOf ext H s A inc Z) (hz : ∀ es B, Z es B → Z' es B) : Shows E σ tagOf strOf ext H s A inc Z' :=
  Makes.mono h (fun _ B ⟨es, h1, h2⟩ => ⟨es, h1, hz es B h2⟩)

theorem ShowsAll.mono {H : Hand} {ss : List (Stmt P)} {A : Store P W} {inc : Str} {Z Z' : List Entry → Store P W → Prop}
    (h : ShowsAll E σ tagOf strOf ext H ss A inc Z) (hz : ∀ es B, Z es B → Z' es B) : ShowsAll E σ tagOf strOf ext H ss A inc Z' :=
  Makes.mono h (fun _ B ⟨es, h1, h2⟩ => ⟨es, h1, hz es B h2⟩)

theorem Shows.weaken {s : Stmt P} {A : Store P W} {inc : Str} {Z : List Entry → Store P W → Prop}
    (h : Shows E σ tagOf strOf ext .none s A inc Z) (H : Hand) : Shows E σ tagOf strOf ext H s A inc Z := Makes.weaken h H

/-! ### Lists -/

theorem ShowsAll.nil (H : Hand) (A : Store P W) (inc : Str) : ShowsAll E σ tagOf strOf ext H [] A inc (fun es B => es = [] ∧ B = A) := by
  unfold ShowsAll
  rw [translAll]
  exact Makes.nil H A ⟨[], .nil, rfl, rfl⟩

theorem ShowsAll.cons {H H1 H2 : Hand} (hs : H.Split H1 H2) {s : Stmt P} {ss : List (Stmt P)} {A : Store P W} {inc : Str}
    {Z Z' : List Entry → Store P W → Prop} (h : Shows E σ tagOf strOf ext H1 s A inc Z) (hi : ∀ es B, Z es B → B.ind σ = A.ind σ)
    (h' : ∀ es B, Z es B → ShowsAll E σ tagOf strOf ext H2 ss B inc (fun es' B' => Z' (es ++ es') B')) :
    ShowsAll E σ tagOf strOf ext H (s :: ss) A inc Z' := by
  unfold ShowsAll at h' ⊢
  have e : translAll E σ (s :: ss) = (do let a ← nodesBy E σ s; let b ← translAll E σ ss; return a ++ b) := by
    rw [translAll]; unfold nodesBy; rw [Comp.bind_assoc]; rfl
  rw [e]
  refine Makes.append hs h ?_
  rintro x B ⟨es, hx, hz⟩
  have h2 := h' es B hz
  rw [hi es B hz] at h2
  refine h2.mono ?_
  rintro y B' ⟨es', hy, hz'⟩
  exact ⟨es ++ es', hx.append hy, hz'⟩

/-! ### Blocks -/

theorem translStatic_shows (s : Str) (A : Store P W) (J : Str) :
    Makes tagOf strOf .none (translStatic s : Comp P X W (List Ref)) A
      (fun ns B => B = A ∧ Dens ext J ns (if s = [] then [] else [⟨false, .bare, s⟩])) := by
  unfold translStatic
  cases s with
  | nil => exact Makes.nil _ A ⟨rfl, .nil⟩
  | cons c s =>
    refine (makes_text (c :: s) none A).mono ?_
    rintro _ _ ⟨rfl, rfl⟩
    exact ⟨rfl, .cons .bare .nil⟩

theorem nodesBy_some (c : Comp P X W (List Ref)) : (do let a ← (do let ns ← c; return some ns); return nodesOf a) = c := by
  rw [Comp.bind_assoc]
  exact Comp.bind_pure c

/-- Statements without output. -/
theorem Shows.none {s : Stmt P} {A A' : Store P W} {o : Option (List Ref)} (inc : Str) (h : Evals (transl E σ s) A o A') (ho : nodesOf o = []) :
    Shows E σ tagOf strOf ext .none s A inc (fun es B => es = [] ∧ B = A') := by
  unfold Shows nodesBy
  refine Makes.eval h ?_
  rw [ho]
  exact Makes.nil _ A' ⟨[], .nil, rfl, rfl⟩

theorem Shows.comment (A : Store P W) (inc : Str) : Shows E σ tagOf strOf ext .none .comment A inc (fun es B => es = [] ∧ B = A) :=
  .none inc (o := some []) (by intro M hM; rw [transl, ← hM]; rfl) rfl

theorem Shows.pass (A : Store P W) (inc : Str) : Shows E σ tagOf strOf ext .none .pass A inc (fun es B => es = [] ∧ B = A) :=
  .none inc (o := some []) (by intro M hM; rw [transl, ← hM]; rfl) rfl

/-- A block of text. -/
theorem Shows.text {lead : Nat} {items : List TextItem} {A A' : Store P W} {s : Str}
    (h : Evals (renderText E σ lead items) A s A') (hi : A'.ind σ = A.ind σ) :
    Shows E σ tagOf strOf ext .none (.text lead items) A [] (fun es B => es = [⟨false, .level, s⟩] ∧ B = A') := by
  unfold Shows nodesBy
  rw [transl]
  simp only [Comp.bind_assoc]
  refine Makes.eval h (Makes.eval (curIndent_evals A') ?_)
  refine (makes_text s (some (A'.ind σ)) A').mono ?_
  rintro _ _ ⟨rfl, rfl⟩
  rw [hi, List.append_nil]
  exact ⟨_, .cons (.level (by simp) rfl arranged_nil) .nil, rfl, rfl⟩

/-- A line of text, as a headline. -/
theorem Shows.line {l : Line} {A A' : Store P W} {s : Str} (inc : Str) (h : Evals (renderLine E σ l) A s A') :
    Shows E σ tagOf strOf ext .none (.line l) A inc (fun es B => es = [⟨false, .bare, s⟩] ∧ B = A') := by
  unfold Shows nodesBy
  rw [transl]
  simp only [Comp.bind_assoc]
  refine Makes.eval h ?_
  refine (makes_text s .none A').mono ?_
  rintro _ _ ⟨rfl, rfl⟩
  exact ⟨_, .cons .bare .nil, rfl, rfl⟩

/-! ### Tags -/

/-- The tag turns the text `t` of its body to `s`. -/
def TagText (E : Env P X W) (σ : StateId) (tagOf : P → TagObj) (strOf : Val P → Str)
    (ext : Nat → Except RenderErr Str → List AttrVal → List (Str × AttrVal) → Except RenderErr Str)
    (x : TagExp) (A : Store P W) (t s : Str) (A' : Store P W) : Prop :=
  ∀ I, A.ind σ = I → Transforms tagOf strOf (translTag E σ x) A (fun ns => Body (ext := ext) I ns t)
    (fun ns B => B = A' ∧ Body (ext := ext) I ns s ∧ ∃ tag attrs kw ms t', ns = [.mk .node (some tag) attrs kw ms false none] ∧
      Body (ext := ext) I ms t' ∧ expandTag ext tag (.ok t') (attrs.getD []) (kw.getD []) = .ok s)

/-- An external tag. -/
theorem TagText.external {name : Str} {slot : Option Slot} {us : List Expr} {ns : List (Str × Expr)} {A A1 A2 A3 : Store P W}
    {attrs : List (Val P)} {kw : Dict Str (Val P)} {p : P} {t s : Str} (h1 : Evals (evalList E σ us) A attrs A1)
    (h2 : Evals (evalNamed E σ ns []) A1 kw A2) (h3 : Evals (readTag σ slot : Comp P X W (Val P)) A2 (.py p) A3) (hp : E.ops.isTag p = true)
    (he : expandTag ext (tagOf p) (.ok t) (attrs.map (attrVal strOf)) (kw.map (fun a => (a.1, attrVal strOf a.2))) = .ok s) :
    TagText E σ tagOf strOf ext (.tag name slot us ns) A t s A3 := by
  intro I hI
  have : translTag E σ (.tag name slot us ns) = (fun body => (do
      let attrs ← evalList E σ us
      let kw ← evalNamed E σ ns []
      let v ← readTag σ slot
      applyTagValue E σ v body attrs kw)) := by funext body; rw [translTag]
  rw [this]
  refine Transforms.eval (c := fun _ => evalList E σ us) (fun _ => h1) ?_
  refine Transforms.eval (c := fun _ => evalNamed E σ ns []) (fun _ => h2) ?_
  refine Transforms.eval (c := fun _ => readTag σ slot) (fun _ => h3) ?_
  simp only [applyTagValue, hp, if_true]
  refine (transforms_node .node (some (.ext p)) (some attrs) (some kw) A3 _).mono ?_
  rintro _ _ ⟨rfl, ms, rfl, hb⟩
  refine ⟨rfl, hb.wrap ?_, _, _, _, _, _, rfl, hb, ?_⟩
  · simpa [tagObj] using he
  · simpa [tagObj] using he

/-- Several tags, from the inner one to the outer one. -/
inductive TagTexts (E : Env P X W) (σ : StateId) (tagOf : P → TagObj) (strOf : Val P → Str)
    (ext : Nat → Except RenderErr Str → List AttrVal → List (Str × AttrVal) → Except RenderErr Str) :
    List TagExp → Store P W → Str → Str → Store P W → Prop
  | one {x : TagExp} {A A' : Store P W} {t s : Str} : TagText E σ tagOf strOf ext x A t s A' → TagTexts E σ tagOf strOf ext [x] A t s A'
  | cons {x : TagExp} {xs : List TagExp} {A A1 A' : Store P W} {t u s : Str} : TagText E σ tagOf strOf ext x A t u A1 →
      A1.ind σ = A.ind σ → TagTexts E σ tagOf strOf ext xs A1 u s A' → TagTexts E σ tagOf strOf ext (x :: xs) A t s A'

theorem TagTexts.transforms {xs : List TagExp} {A A' : Store P W} {t s : Str} (h : TagTexts E σ tagOf strOf ext xs A t s A') :
    Transforms tagOf strOf (applyTags E σ xs) A (fun ns => Body (ext := ext) (A.ind σ) ns t)
    (fun ns B => B = A' ∧ ∃ tag attrs kw ms t', ns = [.mk .node (some tag) attrs kw ms false none] ∧
      Body (ext := ext) (A.ind σ) ms t' ∧ expandTag ext tag (.ok t') (attrs.getD []) (kw.getD []) = .ok s) := by
  induction h with
  | one h =>
    rename_i x A A' t s
    have : applyTags E σ [x] = translTag E σ x := by
      funext b
      simp only [applyTags]
      exact Comp.bind_pure _
    rw [this]
    exact (h _ rfl).mono (fun ns B hn => ⟨hn.1, hn.2.2⟩)
  | cons h hi _ ih =>
    rename_i x xs A A1 A' t u s _
    have : applyTags E σ (x :: xs) = fun b => translTag E σ x b >>= applyTags E σ xs := by
      funext b; rw [applyTags]
    rw [this]
    rw [hi] at ih
    exact Transforms.trans (h _ rfl) (fun ns B hn => by obtain ⟨rfl, hn, -⟩ := hn; exact ih.pre (by rintro _ rfl; exact hn))

/-- Tags around a body. -/
theorem Shows.struct {H : Hand} {tags : List TagExp} {body : Stmt P} {A : Store P W} {inc : Str} {Z Z' : List Entry → Store P W → Prop}
    (h : Shows E σ tagOf strOf ext H body A inc Z) (hi : ∀ es B, Z es B → B.ind σ = A.ind σ)
    (ht : ∀ es B, Z es B → ∃ s B', TagTexts E σ tagOf strOf ext tags.reverse B (shownAll inc es) s B' ∧ B'.ind σ = A.ind σ ∧ Z' [⟨false, .level, s⟩] B')
    (hI : (A.ind σ).take 1 = ['\n']) (hinc : '\n' ∉ inc) :
    Shows E σ tagOf strOf ext H (.struct tags body) A [] Z' := by
  unfold Shows
  have e : nodesBy E σ (.struct tags body) = (nodesBy E σ body >>= fun ns => (applyTags E σ tags.reverse ns >>= fun ns =>
      (curIndent σ >>= fun ind => setIndent ind ns >>= fun _ => pure ns))) := by
    unfold nodesBy
    rw [transl]
    simp only [Comp.bind_assoc, withIndent]
    rfl
  rw [e]
  refine Makes.trans h ?_
  rintro ns B ⟨es, hd, hz⟩
  obtain ⟨s, B', htt, hi', hz'⟩ := ht es B hz
  have hi := hi es B hz
  have hb : Body (ext := ext) (B.ind σ) ns (shownAll inc es) := by rw [hi]; exact hd.body hI hinc
  refine Transforms.trans (htt.transforms.pre (by rintro _ rfl; exact hb)) ?_
  rintro _ _ ⟨rfl, tag, attrs, kw, ms, t', rfl, hm, he⟩
  rename_i B'
  refine Transforms.eval (c := fun _ => curIndent σ) (f := fun ind ns => setIndent ind ns >>= fun _ => pure ns)
    (fun _ => curIndent_evals B') ?_
  refine (transforms_indent (B'.ind σ) B' _ ?_).mono ?_
  · rintro _ rfl n hn
    rw [List.mem_singleton] at hn
    subst hn
    rw [hi', ← hi]
    exact (hm.indent he false .none).1
  · rintro _ _ ⟨rfl, _, rfl, rfl⟩
    rw [hi', ← hi, List.append_nil]
    exact ⟨_, .cons (hm.indent he false .none).2 .nil, hz'⟩

/-! ### Margins and modifiers -/

/-- The first entry begins a new line. -/
def outlineFirst : List Entry → List Entry
  | [] => []
  | e :: es => { e with outline := true } :: es

/-- The entries of a block with its modifier. -/
def modified : Option Modifier → List Entry → List Entry
  | .none, es => outlineFirst es
  | some .append, es => es
  | some .dedent, es => (outlineFirst es).map (fun e => { e with place := .flush })

/-- The empty lines before a block. -/
def marginEntry (m : Str) : List Entry := if m = [] then [] else [⟨false, .bare, m⟩]

theorem finish_transforms (mo : Option Modifier) (A : Store P W) (J : Str) (es : List Entry) :
    Transforms tagOf strOf (fun rs => finishBlock mo [] (some rs) : List Ref → Comp P X W (List Ref)) A
      (fun ns => Dens ext J ns es) (fun ns B => B = A ∧ Dens ext J ns (modified mo es)) := by
  have e : ∀ rs, (finishBlock mo [] (some rs) : Comp P X W (List Ref)) =
      (if mo = some .append then pure rs else (do (match rs with | [] => pure () | r :: _ => setOutline true r); return rs)) >>=
      fun rs => (if mo = some .dedent then (do setIndent [] rs; return rs) else pure rs) := by
    intro rs
    cases rs with
    | nil =>
      cases mo with
      | none => rfl
      | some mo => cases mo <;> rfl
    | cons r rs =>
      cases mo with
      | none => simp only [finishBlock]; rfl
      | some mo => cases mo <;> (simp only [finishBlock]; rfl)
  have hout : Transforms tagOf strOf (fun rs => do (match rs with | [] => pure () | r :: _ => setOutline true r); return rs : List Ref → Comp P X W (List Ref)) A
      (fun ns => Dens ext J ns es) (fun ns B => B = A ∧ Dens ext J ns (outlineFirst es)) := by
    refine (transforms_outline true A _).mono ?_
    rintro ns _ ⟨rfl, (⟨rfl, h⟩ | ⟨m, ms, rfl, h⟩)⟩
    · cases h; exact ⟨rfl, .nil⟩
    · cases h with | cons h1 h2 => exact ⟨rfl, .cons (h1.outlined true) h2⟩
  rw [funext e]
  cases mo with
  | none =>
    refine Transforms.trans (Q1 := fun ns B => B = A ∧ Dens ext J ns (outlineFirst es)) ?_ ?_
    · simpa using hout
    · rintro ns _ ⟨rfl, hd⟩
      refine Transforms.mono (by simpa using Transforms.id _ _) ?_
      rintro _ _ ⟨rfl, rfl⟩
      exact ⟨rfl, hd⟩
  | some mo =>
    cases mo with
    | append =>
      refine Transforms.trans (Q1 := fun ns B => B = A ∧ Dens ext J ns es) ?_ ?_
      · simpa using Transforms.id _ _
      · rintro ns _ ⟨rfl, hd⟩
        refine Transforms.mono (by simpa using Transforms.id _ _) ?_
        rintro _ _ ⟨rfl, rfl⟩
        exact ⟨rfl, hd⟩
    | dedent =>
      refine Transforms.trans (Q1 := fun ns B => B = A ∧ Dens ext J ns (outlineFirst es)) ?_ ?_
      · simpa using hout
      · rintro ns _ ⟨rfl, hd⟩
        simp only [if_true]
        refine (transforms_indent [] _ _ (by rintro _ rfl; exact hd.dedent.1)).mono ?_
        rintro _ _ ⟨rfl, ms, rfl, rfl⟩
        exact ⟨rfl, hd.dedent.2⟩

theorem Shows.xblock {H : Hand} {margin : Str} {mo : Option Modifier} {b : Stmt P} {A : Store P W} {inc : Str} {Z : List Entry → Store P W → Prop}
    (h : Shows E σ tagOf strOf ext H b A inc Z) :
    Shows E σ tagOf strOf ext H (.xblock margin mo b) A inc (fun es B => ∃ es', es = marginEntry margin ++ modified mo es' ∧ Z es' B) := by
  unfold Shows
  have e : nodesBy E σ (.xblock margin mo b) = (do
      let a ← translStatic margin
      let b ← (nodesBy E σ b >>= fun rs => finishBlock mo [] (some rs))
      return a ++ b) := by
    unfold nodesBy
    rw [transl]
    simp only [Comp.bind_assoc]
    congr 1; funext m
    congr 1; funext o
    have : (finishBlock mo m o : Comp P X W (List Ref)) = finishBlock mo [] (some (nodesOf o)) >>= fun b => pure (m ++ b) := by
      cases o with
      | none => simp only [finishBlock, nodesOf]; show pure m = pure (m ++ []); rw [List.append_nil]
      | some rs =>
        cases rs with
        | nil => simp only [finishBlock, nodesOf]; show pure m = pure (m ++ []); rw [List.append_nil]
        | cons r rs =>
          simp only [finishBlock, nodesOf]
          cases mo with
          | none => rfl
          | some mo => cases mo <;> (simp [Comp.bind_assoc]; rfl)
    rw [this]
    simp only [Comp.bind_assoc]
    rfl
  rw [e]
  have h1 := translStatic_shows (X := X) (tagOf := tagOf) (strOf := strOf) (ext := ext) margin A (A.ind σ ++ inc)
  refine Makes.append (H1 := .none) (H2 := H) (.inr ⟨rfl, rfl⟩) h1 ?_
  rintro x _ ⟨rfl, hx⟩
  refine Makes.trans h ?_
  rintro ns B ⟨es, hd, hz⟩
  refine ((finish_transforms mo B _ es).pre (by rintro _ rfl; exact hd)).mono ?_
  rintro y _ ⟨rfl, hy⟩
  exact ⟨_, hx.append hy, es, rfl, hz⟩

/-! ### Bodies -/

theorem translAll_append (ss ts : List (Stmt P)) :
    translAll E σ (ss ++ ts) = (do let a ← translAll E σ ss; let b ← translAll E σ ts; return a ++ b) := by
  induction ss with
  | nil =>
    simp only [translAll, List.nil_append]
    show _ = translAll E σ ts >>= fun b => (pure ([] ++ b) : Comp P X W _)
    simp only [List.nil_append]
    exact (Comp.bind_pure _).symm
  | cons s ss ih =>
    simp only [List.cons_append, translAll, ih, Comp.bind_assoc]
    congr 1; funext a
    congr 1; funext b
    show translAll E σ ts >>= _ = translAll E σ ts >>= _
    congr 1; funext c
    show (pure (nodesOf a ++ (b ++ c)) : Comp P X W _) = pure (nodesOf a ++ b ++ c)
    rw [List.append_assoc]

theorem indents_eval (inc : Str) (A : Store P W) :
    Evals (translAll E σ (inc.map Stmt.indent)) A [] (A.setInd σ (A.ind σ ++ inc)) := by
  induction inc generalizing A with
  | nil =>
    rw [List.append_nil, A.setInd_self]
    rintro M rfl
    simp only [List.map_nil, translAll]; rfl
  | cons c inc ih =>
    intro M hM
    simp only [List.map_cons, translAll, transl]
    have h1 : (doIndent σ c : Comp P X W Unit) M = (.ok (), M.withStore (A.setInd σ (A.ind σ ++ [c]))) := by
      subst hM; rfl
    simp only [Comp.bind_assoc]
    rw [Comp.bind_ok h1]
    have h2 := ih (A.setInd σ (A.ind σ ++ [c])) (M.withStore (A.setInd σ (A.ind σ ++ [c]))) rfl
    rw [Comp.pure_bind, Comp.bind_ok h2]
    rw [A.setInd_ind, Store.setInd_setInd, List.append_assoc]
    rfl

theorem dedents_eval' (l i : Str) (A : Store P W) (h : A.ind σ = i ++ l.reverse) :
    Evals (translAll E σ (l.map Stmt.dedent)) A [] (A.setInd σ i) := by
  induction l generalizing A with
  | nil =>
    rw [List.reverse_nil, List.append_nil] at h
    subst h
    rw [A.setInd_self]
    rintro M rfl
    simp only [List.map_nil, translAll]; rfl
  | cons c l ih =>
    rw [List.reverse_cons, ← List.append_assoc] at h
    intro M hM
    rw [List.map_cons]
    simp only [translAll, transl]
    have h1 : (doDedent σ c : Comp P X W Unit) M = (.ok (), M.withStore (A.setInd σ (i ++ l.reverse))) := by
      subst hM
      unfold doDedent
      have h0 : (curIndent σ : Comp P X W Str) M = (.ok (i ++ l.reverse ++ [c]), M) := by
        show (Res.ok (Store.ind M.store σ), M) = _
        rw [h]
      rw [Comp.bind_ok h0]
      have e1 : (i ++ l.reverse ++ [c]).getLast? = some c := by simp
      have e2 : (i ++ l.reverse ++ [c]).dropLast = i ++ l.reverse := by simp
      rw [e1, e2]
      simp only [if_true]
      rfl
    simp only [Comp.bind_assoc]
    rw [Comp.bind_ok h1]
    have h2 := ih (A.setInd σ (i ++ l.reverse)) (A.setInd_ind σ _) (M.withStore (A.setInd σ (i ++ l.reverse))) rfl
    rw [Comp.pure_bind, Comp.bind_ok h2]
    rw [Store.setInd_setInd]
    rfl

theorem dedents_eval (inc i : Str) (A : Store P W) (h : A.ind σ = i ++ inc) :
    Evals (translAll E σ (inc.reverse.map Stmt.dedent)) A [] (A.setInd σ i) :=
  dedents_eval' inc.reverse i A (by rw [List.reverse_reverse]; exact h)

theorem keepIndent_makes {H : Hand} {c : Comp P X W (List Ref)} {A : Store P W} {Q : List Node → Store P W → Prop} (h : Makes tagOf strOf H c A Q) :
    Makes tagOf strOf H (keepIndent σ c) A (fun ns B => ∃ A1, B = A1.setInd σ (A.ind σ) ∧ Q ns A1) := by
  intro M ns F hM hR hF hQ
  obtain ⟨rs, M', ns', F', h1, h3, h4, h5, h6, h7⟩ := h M ns F hM hR hF hQ
  refine ⟨rs, M'.withStore (M'.store.setInd σ (A.ind σ)), ns', F', ?_, h3, h4, h5, h6, _, rfl, h7⟩
  unfold keepIndent
  rw [h1]
  subst hM
  rfl

/-- A body: an indented group of blocks. -/
theorem Shows.group {H : Hand} {ss : List (Stmt P)} {inc : Str} {A : Store P W} {Z : List Entry → Store P W → Prop}
    (h : ShowsAll E σ tagOf strOf ext H ss (A.setInd σ (A.ind σ ++ inc)) [] Z) (hi : ∀ es B, Z es B → B.ind σ = A.ind σ ++ inc) :
    Shows E σ tagOf strOf ext H (.body (bracket .indent .dedent inc ss)) A inc (fun es B => ∃ A1, B = A1.setInd σ (A.ind σ) ∧ Z es A1) := by
  unfold Shows
  have e : nodesBy E σ (.body (bracket .indent .dedent inc ss)) = keepIndent σ (translAll E σ (bracket .indent .dedent inc ss)) := by
    unfold nodesBy
    rw [transl]
    exact nodesBy_some _
  rw [e]
  refine (keepIndent_makes (Q := fun ns B => ∃ es A1, Dens ext (A.ind σ ++ inc) ns es ∧ B = A1.setInd σ (A.ind σ) ∧ Z es A1) ?_).mono ?_
  · unfold bracket
    rw [translAll_append, translAll_append]
    simp only [Comp.bind_assoc]
    refine Makes.eval (indents_eval inc A) ?_
    simp only [Comp.pure_bind, List.nil_append]
    unfold ShowsAll at h
    rw [Store.setInd_ind, List.append_nil] at h
    refine Makes.trans h ?_
    rintro ns B ⟨es, hd, hz⟩
    have hd' := dedents_eval (E := E) (X := X) inc (A.ind σ) B (hi es B hz)
    refine Transforms.eval (f := fun b rs => pure (rs ++ b)) (fun _ => hd') ?_
    simp only [List.append_nil]
    refine (Transforms.id _ _).mono ?_
    rintro _ _ ⟨rfl, rfl⟩
    exact ⟨es, B, hd, rfl, hz⟩
  · rintro ns _ ⟨_, rfl, es, A1, hd, rfl, hz⟩
    exact ⟨es, hd, A1, by rw [Store.setInd_setInd], hz⟩

/-- An empty body. -/
theorem Shows.nothing (A : Store P W) : Shows E σ tagOf strOf ext .none (.body []) A [] (fun es B => es = [] ∧ B = A) := by
  have h := Shows.group (E := E) (σ := σ) (tagOf := tagOf) (strOf := strOf) (ext := ext) (H := .none) (ss := []) (inc := []) (A := A)
    (ShowsAll.nil _ _ []) (by rintro _ _ ⟨-, rfl⟩; exact Store.setInd_ind _ _ _)
  refine Shows.mono h ?_
  rintro es B ⟨A1, h1, h2, h3⟩
  exact ⟨h2, by rw [h1, h3, Store.setInd_setInd, Store.setInd_self]⟩

end
end Verif
