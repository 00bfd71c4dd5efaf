import Verif.Lemmas.Calls

/-! Templates with conditions, loops, variables and components: they are read, analysed, and output their markup. -/

namespace Verif
open Py Spec Ctx

section
variable {P X W I : Type} (E : Env P X W) (D : PyData E.ops E.fuel) (σ : StateId) (M : Marks) (names : Str → Option Char)
  (tagOf : P → TagObj) (strOf : Val P → Str)
  (ext : Nat → Except RenderErr Str → List AttrVal → List (Str × AttrVal) → Except RenderErr Str) (void : Str → Option Bool)
  (src : Source P I) (L : Setting P W)

/-- What happens when a part is executed: iterators of other loops, variables in use and slots of other parts are not changed. -/
structure Runs (n : Slot) (b : List (Str × SlotInfo)) (Γ : Str → Prop) (ρ : Vars) (rs : List Ref) (A A' : Store P W) : Prop where
  ind : A'.ind σ = A.ind σ
  kept : Kept D A A'
  scene : Scene E D σ tagOf void L b Γ ρ rs A'
  quiet : Quiet σ L n A A'

/-- The body of a component, if it is handed to the template. -/
def bodyHand (β : Bool) (rs : List Ref) (cb : List Chunk) : Hand :=
  match β with | true => ⟨rs, Showing ext cb⟩ | false => .none

/-- The block `t`, with the items `is` under it, is read, analysed, and outputs `out`. -/
def TmplBlockMade (β : Bool) (Γ Γ' : Str → Prop) (t : Str) (is : List Item) (out : Vars → List Chunk → Option (List Chunk)) (after : Vars → Vars) : Prop :=
  ∀ c : Ctx, c.Good L → Bound L Γ void c.binds → ∃ s s' c', (∀ k, Spec.Block M names k 1 t is s) ∧
    (s = .comment ∨ ∀ c : Ctx, leaveProlog s c = { c with prolog := false }) ∧
    analyse src s c = .ok (s', c') ∧ Grows L Γ void c c' ∧ Bound L Γ' void c'.binds ∧
    ∀ ρ rs A cb cs, Scene E D σ tagOf void L c.binds Γ ρ rs A → (A.ind σ).take 1 = ['\n'] → out ρ cb = some cs →
      Shows E σ tagOf strOf ext (bodyHand ext β rs cb) s' A [] (fun es B => Runs E D σ tagOf void L c'.next c.binds Γ ρ rs A B ∧
        Scene E D σ tagOf void L c'.binds Γ' (after ρ) rs B ∧ Chunks (outlineFirst es) cs)

/-- The same for a list of blocks. -/
def TmplMade (β : Bool) (Γ : Str → Prop) (is : List Item) (out : Vars → List Chunk → Option (List Chunk)) : Prop :=
  ∀ c : Ctx, c.Good L → Bound L Γ void c.binds → ∃ ss ss' c', (∀ k, Spec.Blocks M names k is ss) ∧
    analyseAll src ss c = .ok (ss', c') ∧ Grows L Γ void c c' ∧
    ∀ ρ rs A cb cs, Scene E D σ tagOf void L c.binds Γ ρ rs A → (A.ind σ).take 1 = ['\n'] → out ρ cb = some cs →
      ShowsAll E σ tagOf strOf ext (bodyHand ext β rs cb) ss' A [] (fun es B => Runs E D σ tagOf void L c'.next c.binds Γ ρ rs A B ∧ Chunks es cs)

/-- The same for a group as the body of a block. -/
def TmplBodyMade (β : Bool) (Γ : Str → Prop) (inc : Str) (is : List Item) (out : Vars → List Chunk → Option (List Chunk)) : Prop :=
  ∀ c : Ctx, c.Good L → Bound L Γ void c.binds → ∃ ss ss' c', (∀ k, Spec.Nested M names k [.group inc is] ss) ∧
    analyse src (.body ss) c = .ok (.body ss', c') ∧ Grows L Γ void c c' ∧
    ∀ ρ rs A cb cs, Scene E D σ tagOf void L c.binds Γ ρ rs A → (A.ind σ).take 1 = ['\n'] → out ρ cb = some cs →
      Shows E σ tagOf strOf ext (bodyHand ext β rs cb) (.body ss') A inc (fun es B => Runs E D σ tagOf void L c'.next c.binds Γ ρ rs A B ∧ Chunks es cs)

/-- Trees of nodes at some level that show `cs`, with what happens. -/
def RunsShowing (n : Slot) (b : List (Str × SlotInfo)) (Γ : Str → Prop) (ρ : Vars) (rs : List Ref) (A : Store P W) (J : Str) (cs : List Chunk)
    (ns : List Node) (B : Store P W) : Prop :=
  ∃ es, Dens ext J ns es ∧ Runs E D σ tagOf void L n b Γ ρ rs A B ∧ Chunks es cs

/-- The same for clauses. -/
def TmplElseMade (β : Bool) (Γ : Str → Prop) (is : List Item) (out : Vars → List Chunk → Option (List Chunk)) : Prop :=
  ∀ c : Ctx, c.Good L → Bound L Γ void c.binds → ∃ js ls cls els cls' els' c1 c', is = js ++ ls ∧ (∀ k, Spec.Elifs M names k js cls) ∧
    (∀ k, Spec.MaybeElse M names k ls els) ∧ analyseClauses src cls c = .ok (cls', c1) ∧ analyseElse src els c1 = .ok (els', c') ∧
    Grows L Γ void c c' ∧
    ∀ ρ rs A cb cs, Scene E D σ tagOf void L c.binds Γ ρ rs A → (A.ind σ).take 1 = ['\n'] → out ρ cb = some cs →
      ∃ J, Makes tagOf strOf (bodyHand ext β rs cb) (translIf E σ cls' (translOpt E σ els')) A
        (RunsShowing E D σ tagOf ext void L c'.next c.binds Γ ρ rs A J cs)

variable {E D σ M names tagOf strOf ext void src L} {Γ Γ' : Str → Prop} {β : Bool}

theorem Runs.refl {b : List (Str × SlotInfo)} {ρ : Vars} {rs : List Ref} {A : Store P W} {n : Slot} (h : Scene E D σ tagOf void L b Γ ρ rs A) :
    Runs E D σ tagOf void L n b Γ ρ rs A A := ⟨rfl, .refl A, h, .refl _ A⟩

theorem Runs.grow {b : List (Str × SlotInfo)} {ρ : Vars} {rs : List Ref} {A B : Store P W} {n n' : Slot} (h : Runs E D σ tagOf void L n b Γ ρ rs A B)
    (hn : n ≤ n') : Runs E D σ tagOf void L n' b Γ ρ rs A B := ⟨h.ind, h.kept, h.scene, h.quiet.to hn⟩

theorem Shows.hand {s : Stmt P} {A : Store P W} {inc : Str} {Z : List Entry → Store P W → Prop} {rs : List Ref} {cb : List Chunk}
    (h : Shows E σ tagOf strOf ext .none s A inc Z) : Shows E σ tagOf strOf ext (bodyHand ext β rs cb) s A inc Z := h.weaken _

theorem bodyHand_split {β1 β2 : Bool} (h : (β1 = β ∧ β2 = false) ∨ (β1 = false ∧ β2 = β)) (rs : List Ref) (cb : List Chunk) :
    (bodyHand ext β rs cb).Split (bodyHand ext β1 rs cb) (bodyHand ext β2 rs cb) := by
  rcases h with ⟨rfl, rfl⟩ | ⟨rfl, rfl⟩
  · exact .inl ⟨rfl, rfl⟩
  · exact .inr ⟨rfl, rfl⟩

/-! ### Lists of blocks -/

theorem TmplMade.nil : TmplMade E D σ M names tagOf strOf ext void src L β Γ [] (fun _ _ => some []) := by
  intro c hg hb
  refine ⟨[], [], c, fun _ => .nil, by rw [analyseAll]; rfl, .refl hg, fun ρ rs A cb cs hS _ ho => ?_⟩
  cases ho
  refine (ShowsAll.nil _ A []).mono ?_
  rintro _ _ ⟨rfl, rfl⟩
  exact ⟨.refl hS, .nil⟩

theorem TmplMade.cons {β1 β2 : Bool} (hβ : (β1 = β ∧ β2 = false) ∨ (β1 = false ∧ β2 = β)) {m : Nat} {t : Str} {is rest : List Item}
    {out out' : Vars → List Chunk → Option (List Chunk)} {after : Vars → Vars}
    (h : TmplBlockMade E D σ M names tagOf strOf ext void src L β1 Γ Γ' t is out after)
    (h' : TmplMade E D σ M names tagOf strOf ext void src L β2 Γ' rest out') (hΓ : ∀ y, Γ y → Γ' y) (hρ : ∀ ρ y, Γ y → after ρ y = ρ y) :
    TmplMade E D σ M names tagOf strOf ext void src L β Γ (.line m t :: (is ++ rest))
      (fun ρ cb => (out ρ cb).bind (fun a => (out' (after ρ) cb).map (fun r => gap m ++ (a ++ r)))) := by
  intro c hg hb
  obtain ⟨s, s', c1, h1, h2, h3, h4, h5, h6⟩ := h { c with prolog := false } (hg.of rfl rfl (Nat.le_refl _)) hb
  have hx : ∃ c1' : Ctx, analyse src (.xblock (List.replicate m '\n') none s) c = .ok (.xblock (List.replicate m '\n') none s', c1') ∧
      c1'.binds = c1.binds ∧ c1'.next = c1.next ∧ Grows L Γ void c c1' := by
    rcases h2 with rfl | h2
    · rw [analyse] at h3
      cases h3
      exact ⟨c, by rw [analyse]; rfl, rfl, rfl, .refl hg⟩
    · refine ⟨c1, ?_, rfl, rfl, ⟨⟨h4.step.regular, h4.step.control, h4.step.hypertag, h4.step.next, h4.step.binds⟩, h4.good, h4.same⟩⟩
      rw [analyse, h2, h3]; rfl
  obtain ⟨c1', k1, k2, k2', k3⟩ := hx
  obtain ⟨ss, ss', c2, g1, g2, g3, g4⟩ := h' c1' k3.good (by rw [k2]; exact h5)
  refine ⟨.xblock (List.replicate m '\n') none s :: ss, .xblock (List.replicate m '\n') none s' :: ss', c2,
    fun k => .cons (h1 _) (g1 _), ?_, k3.trans g3 hΓ, fun ρ rs A cb cs hS hi ho => ?_⟩
  · rw [analyseAll, k1]
    show (analyseAll src ss c1' >>= _) = _
    rw [g2]; rfl
  · simp only [Option.bind_eq_some_iff, Option.map_eq_some_iff] at ho
    obtain ⟨a, ha, r, hr, rfl⟩ := ho
    have p := h6 ρ rs A cb a hS hi ha
    refine ShowsAll.cons (bodyHand_split hβ rs cb) (Shows.xblock p) ?_ ?_
    · rintro _ B ⟨es, rfl, hR, -, -⟩
      exact hR.ind
    · rintro _ B ⟨es, rfl, hR, hS', hc⟩
      rw [← k2] at hS'
      refine (g4 (after ρ) rs B cb r hS' (by rw [hR.ind]; exact hi) hr).mono ?_
      rintro es' B' ⟨hR', hc'⟩
      refine ⟨⟨hR'.ind.trans hR.ind, hR.kept.trans hR'.kept, ?_, hR.quiet.trans hR'.quiet (by rw [← k2']; exact g3.step.next)⟩, ?_⟩
      · exact hR'.scene.to hΓ (fun y hy => (hρ ρ y hy).symm) (fun sym hs => (k3.same sym hs).symm)
      · rw [List.append_assoc]
        exact (chunks_margin m).append (.append hc hc')

/-! ### Simple blocks -/

theorem TmplBlockMade.comment {s : Str} (h : ∀ c ∈ s, TextChar M c) :
    TmplBlockMade E D σ M names tagOf strOf ext void src L β Γ Γ ('-' :: '-' :: s) [] (fun _ _ => some []) id := by
  intro c hg hb
  refine ⟨.comment, .comment, c, fun _ => .comment (mark := ['-', '-']) (.inr rfl) h .none, .inl rfl, by rw [analyse]; rfl, .refl hg, hb,
    fun ρ rs A cb cs hS _ ho => ?_⟩
  cases ho
  refine (Shows.mono (Shows.comment A []) ?_).hand
  rintro _ _ ⟨rfl, rfl⟩
  exact ⟨.refl hS, hS, .nil⟩

theorem TmplBlockMade.text (hm : ∀ c, isMark M c = true → 0x2768 ≤ c.toNat) (hE : EscapesHtml E) {ct : Content}
    (h : ContentWritable M (PathOk Γ) ct) :
    TmplBlockMade E D σ M names tagOf strOf ext void src L β Γ Γ ct.source [] 
      (fun ρ _ => if ρ.shows ct then some [.block [ct.html ρ.env]] else none) id := by
  intro c hg hb
  let J := { p : Vars × Store P W // Situ E D σ tagOf void c.binds Γ p.1 p.2 ∧ p.1.shows ct = true }
  obtain ⟨hk, hn⟩ := content_known (names := names) (I := I) (J := J) (ρ := fun j => j.1.1) (B := fun j => j.1.2) h hb.binds (fun j => j.2.1) (fun j => j.2.2)
  obtain ⟨kd, t, l, l', h1, h2, h3, h5⟩ := content_read hm hE hk hn
  refine ⟨.text 1 [.line l], .text 1 [.line l'], c, fun k => ?_, .inr (fun _ => rfl), ?_, .refl hg, hb, fun ρ rs A cb cs hS hi ho => ?_⟩
  · rw [h1]
    exact .struct (.text (.text (.some h2) .none))
  · rw [analyse]
    simp only [analyseItems, analyseItem, h3]
    rfl
  · simp only [Option.ite_none_right_eq_some, Option.some.injEq] at ho
    obtain ⟨hp, rfl⟩ := ho
    have he := h5 ⟨(ρ, A), hS.situ, hp⟩ (A.ind σ) 1 (Nat.le_refl 1)
    have hn' := hn ⟨(ρ, A), hS.situ, hp⟩
    simp only [A.setInd_self] at he hn'
    refine (Shows.mono (Shows.text he rfl) ?_).hand
    rintro _ _ ⟨rfl, rfl⟩
    exact ⟨.refl hS, hS, chunks_one (by simp [flat]) (by simpa using hn')⟩

/-- Elements around a body. -/
theorem struct_made (hm : ∀ c, isMark M c = true → 0x2768 ≤ c.toNat) {es : List Elem} {last : Bool}
    (he : ElemsOk M void (PathOk Γ) last es) {c : Ctx} (hg : c.Good L) (hb : Bound L Γ void c.binds) {t' : Str} {is : List Item}
    {body body' : Stmt P} {c1 : Ctx} (ht : t'.head? ≠ some '!') (hs : ∀ k, Spec.StructBody M names k (1 + (elemsSource es).length) t' is body)
    (ha : analyse src body { c with regular := c.regular + 1 } = .ok (body', c1))
    (hst : Ctx.Step { c with regular := c.regular + 1 } c1) :
    ∃ s s', (∀ k, Spec.Block M names k 1 (elemsSource es ++ t') is s) ∧
      (s = .comment ∨ ∀ c : Ctx, leaveProlog s c = { c with prolog := false }) ∧ analyse src s c = .ok (s', c.leave c1) ∧
      Grows L Γ void c (c.leave c1) ∧ Bound L Γ void (c.leave c1).binds ∧
      ∀ H ρ rs A inc ls (Z : List Entry → Prop), ρ.opens es = true → (A.ind σ).take 1 = ['\n'] →
        Shows E σ tagOf strOf ext H body' A inc (fun ns B => Runs E D σ tagOf void L c1.next c.binds Γ ρ rs A B ∧ Z ns) → '\n' ∉ inc →
        (∀ ns, Z ns → (last = true → shownAll inc ns = []) ∧
          '\n' :: wrapElems (fun n => (void n).getD false) ρ.env es (shownAll inc ns) = flat ls ∧ ∀ l ∈ ls, '\n' ∉ l) →
        Shows E σ tagOf strOf ext H s' A [] (fun ns B => Runs E D σ tagOf void L (c.leave c1).next c.binds Γ ρ rs A B ∧
          Scene E D σ tagOf void L (c.leave c1).binds Γ (id ρ) rs B ∧ Chunks (outlineFirst ns) [.block ls]) := by
  let J := { p : Vars × Store P W // Situ E D σ tagOf void c.binds Γ p.1 p.2 ∧ p.1.opens es = true }
  have hk := elems_known (names := names) (I := I) (J := J) (ρ := fun j => j.1.1) (B := fun j => j.1.2) he hb.binds (fun j => j.2.1) (fun j => j.2.2)
  have hT := tags_known (J := J) (ρ := fun j => j.1.1) (B := fun j => j.1.2) hb.binds (fun j => j.2.1)
  obtain ⟨xs, xs', h1, h2, h3, h4⟩ := elems_read (strOf := strOf) (ext := ext) hm hT hk
  have hgr : Grows L Γ void c (c.leave c1) := Grows.leave (c1 := { c with regular := c.regular + 1 }) hg rfl rfl rfl hst
  refine ⟨.struct xs body, .struct xs' body', fun k => .struct (.tags h1 (fun h => absurd h ht) (by simp) (hs _)), .inr (fun _ => rfl), ?_,
    hgr, hgr.bound hb, fun H ρ rs A inc ls Z ho hi hsh hinc hz => ?_⟩
  · rw [analyse, h2]
    show (analyse src body { c with regular := c.regular + 1 } >>= _) = _
    rw [ha]; rfl
  · refine Shows.struct hsh (fun ns B h => h.1.ind) (fun ns B h => ?_) hi hinc
    obtain ⟨hR, hz'⟩ := h
    obtain ⟨hl, hw, hls⟩ := hz ns hz'
    have ht := h4 ⟨(ρ, B), hR.scene.situ, ho⟩ (B.ind σ) _ hl
    simp only [B.setInd_self] at ht
    exact ⟨_, B, ht, hR.ind, hR, hR.scene.to (fun _ h => h) (fun _ _ => rfl) hgr.same, chunks_one hw hls⟩

theorem TmplBlockMade.inline (hm : ∀ c, isMark M c = true → 0x2768 ≤ c.toNat) (hE : EscapesHtml E) {es : List Elem} {ct : Content}
    (he : ElemsOk M void (PathOk Γ) false es) (h : ContentWritable M (PathOk Γ) ct) :
    TmplBlockMade E D σ M names tagOf strOf ext void src L β Γ Γ (elemsSource es ++ ' ' :: ct.source) []
      (fun ρ _ => if ρ.opens es ∧ ρ.shows ct then some [.block [startTags ρ.env es ++ (ct.html ρ.env ++ endTags es)]] else none) id := by
  intro c hg hb
  let J := { p : Vars × Store P W // Situ E D σ tagOf void c.binds Γ p.1 p.2 ∧ p.1.shows ct = true }
  obtain ⟨hk, hn⟩ := content_known (names := names) (I := I) (J := J) (ρ := fun j => j.1.1) (B := fun j => j.1.2) h hb.binds (fun j => j.2.1) (fun j => j.2.2)
  obtain ⟨kd, t, l, l', h1, h2, h3, h5⟩ := content_read hm hE hk hn
  obtain ⟨s, s', k1, k2, k3, k4, k5, k6⟩ := struct_made (L := L) (D := D) (σ := σ) (E := E) (tagOf := tagOf) (strOf := strOf) (ext := ext) (src := src) (names := names)
    hm he hg hb (t' := ' ' :: ct.source) (is := [])
    (body := .text (1 + (elemsSource es).length + 1) [.line l]) (body' := .text (1 + (elemsSource es).length + 1) [.line l']) (by simp)
    (fun k => by rw [h1]; exact .text (w := [' ']) (by simp [Blanks]) (.text (.some h2) .none))
    (by rw [analyse]; simp only [analyseItems, analyseItem, h3]; rfl) (.refl _)
  refine ⟨s, s', _, k1, k2, k3, k4, k5, fun ρ rs A cb cs hS hi ho => ?_⟩
  simp only [Option.ite_none_right_eq_some, Option.some.injEq] at ho
  obtain ⟨⟨hp, hp'⟩, rfl⟩ := ho
  have hev := h5 ⟨(ρ, A), hS.situ, hp'⟩ (A.ind σ) (1 + (elemsSource es).length + 1) (by omega)
  have hn' := hn ⟨(ρ, A), hS.situ, hp'⟩
  simp only [A.setInd_self] at hev hn'
  have hsh : shownAll [] [⟨false, .level, ct.html ρ.env⟩] = ct.html ρ.env := by
    simp [shownAll, Entry.shown, Entry.full, addIndent]
  refine k6 _ ρ rs A [] _ (fun es => es = [⟨false, .level, ct.html ρ.env⟩]) hp hi ((Shows.mono (Shows.text hev rfl) ?_).hand) (by simp) ?_
  · rintro _ _ ⟨rfl, rfl⟩; exact ⟨.refl hS, rfl⟩
  rintro _ rfl
  refine ⟨by simp, ?_, ?_⟩
  · rw [hsh, wrap_full _ _ _ he.ne he.full, if_neg]
    · simp [flat]
    · intro hx
      apply hn'
      cases hc : ct.html ρ.env with
      | nil => rw [hc] at hx; simp at hx
      | cons d ds => rw [hc] at hx; simp at hx; simp [hx]
  · intro x hx
    rw [List.mem_singleton] at hx
    subst hx
    simp [startTags_oneLine he.all, endTags_oneLine he.all, hn']

theorem TmplBlockMade.empty (hm : ∀ c, isMark M c = true → 0x2768 ≤ c.toNat) {es : List Elem} (he : ElemsOk M void (PathOk Γ) true es) :
    TmplBlockMade E D σ M names tagOf strOf ext void src L β Γ Γ (elemsSource es) []
      (fun ρ _ => if ρ.opens es then some [.block [emptyTags (fun n => (void n).getD false) ρ.env es]] else none) id := by
  intro c hg hb
  obtain ⟨s, s', k1, k2, k3, k4, k5, k6⟩ := struct_made (L := L) (D := D) (σ := σ) (E := E) (tagOf := tagOf) (strOf := strOf) (ext := ext) (src := src) (names := names)
    hm he hg hb (t' := []) (is := []) (body := .body []) (body' := .body []) (by simp)
    (fun k => .plain .none) (by rw [analyse, analyseAll]; rfl) (.refl _)
  refine ⟨s, s', _, by simpa using k1, k2, k3, k4, k5, fun ρ rs A cb cs hS hi ho => ?_⟩
  simp only [Option.ite_none_right_eq_some, Option.some.injEq] at ho
  obtain ⟨hp, rfl⟩ := ho
  refine k6 _ ρ rs A [] _ (fun es => es = []) hp hi ((Shows.mono (Shows.nothing A) ?_).hand) (by simp) ?_
  · rintro _ _ ⟨rfl, rfl⟩; exact ⟨.refl hS, rfl⟩
  rintro _ rfl
  refine ⟨fun _ => rfl, ?_, ?_⟩
  · show '\n' :: wrapElems _ ρ.env es [] = _
    rw [wrap_empty _ _ _ he.ne he.inner]
    simp [flat]
  · intro x hx
    rw [List.mem_singleton] at hx
    subst hx
    exact emptyTags_oneLine _ he.all

/-! ### Bodies -/

theorem TmplMade.body (hL : L.Sound σ) {inc : Str} (hb : Blanks inc) (hne : inc ≠ []) {is : List Item} (hi : is ≠ []) {out : Vars → List Chunk → Option (List Chunk)}
    (h : TmplMade E D σ M names tagOf strOf ext void src L β Γ is out) : TmplBodyMade E D σ M names tagOf strOf ext void src L β Γ inc is out := by
  intro c hg hbi
  obtain ⟨ss, ss', c', h1, h2, h3, h4⟩ := h c hg hbi
  refine ⟨bracket .indent .dedent inc ss, bracket .indent .dedent inc ss', c', fun k => .group hb hne hi (h1 _), ?_, h3,
    fun ρ rs A cb cs hS hI ho => ?_⟩
  · rw [analyse, analyse_bracket h2]; rfl
  · have hJ : (A.ind σ ++ inc).take 1 = ['\n'] := by
      cases hA : A.ind σ with
      | nil => rw [hA] at hI; simp at hI
      | cons d i => rw [hA] at hI; simpa using hI
    have p := h4 ρ rs (A.setInd σ (A.ind σ ++ inc)) cb cs (hS.setInd hL _) (by rw [Store.setInd_ind]; exact hJ) ho
    refine Shows.mono (Shows.group p (fun es B hB => by rw [hB.1.ind, Store.setInd_ind])) ?_
    rintro es _ ⟨B, rfl, hR, hc⟩
    refine ⟨⟨Store.setInd_ind _ _ _, hR.kept, hR.scene.setInd hL _, fun sl h1 h2 => ?_⟩, hc⟩
    have := hR.quiet sl h1 h2
    rw [Store.setInd_value] at this ⊢
    exact this

theorem TmplBlockMade.nested (hm : ∀ c, isMark M c = true → 0x2768 ≤ c.toNat) {es : List Elem} (he : ElemsOk M void (PathOk Γ) false es)
    {inc : Str} (hbl : Blanks inc) {is : List Item} {out : Vars → List Chunk → Option (List Chunk)}
    (h : TmplBodyMade E D σ M names tagOf strOf ext void src L β Γ inc is out) :
    TmplBlockMade E D σ M names tagOf strOf ext void src L β Γ Γ (elemsSource es) [.group inc is]
      (fun ρ cb => if ρ.opens es then (out ρ cb).map (fun cs => [.block (aroundLines (fun n => (void n).getD false) ρ.env es inc (chunkLines cs))]) else none) id := by
  intro c hg hb
  obtain ⟨ss, ss', c', h1, h2, h3, h4⟩ := h { c with regular := c.regular + 1 } (hg.of rfl rfl (Nat.le_succ _)) hb
  obtain ⟨s, s', k1, k2, k3, k4, k5, k6⟩ := struct_made (L := L) (D := D) (σ := σ) (E := E) (tagOf := tagOf) (strOf := strOf) (ext := ext) (src := src) (names := names)
    hm he hg hb (t' := []) (is := [.group inc is]) (by simp) (fun k => .plain (h1 _)) h2 h3.step
  refine ⟨s, s', _, by simpa using k1, k2, k3, k4, k5, fun ρ rs A cb cs hS hi ho => ?_⟩
  simp only [Option.ite_none_right_eq_some, Option.map_eq_some_iff] at ho
  obtain ⟨hp, cs', hcs, rfl⟩ := ho
  have hinc := blanks_oneLine hbl
  refine k6 _ ρ rs A inc _ (fun es => Chunks es cs') hp hi (h4 ρ rs A cb cs' hS hi hcs) hinc ?_
  intro ns p3
  refine ⟨by simp, ?_, ?_⟩
  · rw [p3.shown inc hinc]
    cases chunkLines cs' with
    | nil =>
      show '\n' :: wrapElems _ ρ.env es [] = _
      rw [wrap_empty _ _ _ he.ne he.inner]
      simp [flat, aroundLines]
    | cons l ls =>
      rw [wrap_full _ _ _ he.ne he.full, if_pos (by simp [flat])]
      simp [flat, aroundLines]
  · have hls := p3.oneLine
    intro x hx
    cases hcl : chunkLines cs' with
    | nil =>
      rw [hcl] at hx
      simp only [aroundLines, List.mem_singleton] at hx
      subst hx
      exact emptyTags_oneLine _ he.all
    | cons l ls =>
      rw [hcl] at hx hls
      simp only [aroundLines, List.mem_cons, List.mem_append, List.not_mem_nil, or_false, List.mem_map] at hx
      rcases hx with rfl | ⟨y, hy, rfl⟩ | rfl
      · exact startTags_oneLine he.all
      · exact shift_oneLine hinc (hls y (by simpa using hy))
      · exact endTags_oneLine he.all

/-! ### Conditions -/

/-- The nodes of a control block are placed at the level of the block. -/
theorem Shows.control {H : Hand} {s : Stmt P} {c : Comp P X W (List Ref)} {A : Store P W} {J : Str} {Z : List Entry → Store P W → Prop}
    (e : nodesBy E σ s = c >>= fun ns => (curIndent σ >>= fun ind => setIndent ind ns >>= fun _ => pure ns))
    (h : Makes tagOf strOf H c A (fun ns B => ∃ es, Dens ext J ns es ∧ Z es B)) (hi : ∀ es B, Z es B → B.ind σ = A.ind σ) :
    Shows E σ tagOf strOf ext H s A [] (fun es B => ∃ es', es = es'.map (fun e => { e with place := .level }) ∧ Z es' B) := by
  unfold Shows
  rw [e]
  refine h.trans ?_
  rintro ns B ⟨es, hd, hz⟩
  refine Transforms.eval (c := fun _ => curIndent σ) (f := fun ind ns => setIndent ind ns >>= fun _ => pure ns)
    (fun _ => curIndent_evals B) ?_
  refine (transforms_indent (B.ind σ) B _ (by rintro _ rfl; exact (hd.indent _).1)).mono ?_
  rintro _ _ ⟨rfl, ms, rfl, rfl⟩
  rw [← hi es _ hz, List.append_nil]
  exact ⟨_, (hd.indent _).2, es, rfl, hz⟩

theorem Runs.to {b b' : List (Str × SlotInfo)} {ρ : Vars} {rs : List Ref} {A A' : Store P W} {n : Slot} (h : Runs E D σ tagOf void L n b Γ ρ rs A A')
    (hb : ∀ sym, InView L Γ void sym → lookupBind b' sym = lookupBind b sym) : Runs E D σ tagOf void L n b' Γ ρ rs A A' :=
  ⟨h.ind, h.kept, h.scene.to (fun _ h => h) (fun _ _ => rfl) hb, h.quiet⟩

theorem TmplElseMade.none : TmplElseMade E D σ M names tagOf strOf ext void src L β Γ [] (fun _ _ => some []) := by
  intro c hg hb
  refine ⟨[], [], [], .none, [], .none, c, c, rfl, fun _ => .nil, fun _ => .none, by rw [analyseClauses]; rfl, by rw [analyseElse]; rfl,
    .refl hg, fun ρ rs A cb cs hS _ ho => ?_⟩
  cases ho
  refine ⟨[], ?_⟩
  rw [translIf, translOpt]
  exact Makes.nil _ A ⟨[], .nil, .refl hS, .nil⟩

theorem TmplElseMade.els {m : Nat} {inc : Str} {is : List Item} {out : Vars → List Chunk → Option (List Chunk)}
    (h : TmplBodyMade E D σ M names tagOf strOf ext void src L β Γ inc is out) :
    TmplElseMade E D σ M names tagOf strOf ext void src L β Γ [.line m (s!!"else"), .group inc is] out := by
  intro c hg hb
  obtain ⟨ss, ss', c', h1, h2, h3, h4⟩ := h c hg hb
  refine ⟨[], _, [], some (.elseClause (some (.body ss))), [], some (.elseClause (some (.body ss'))), c, c.mergeBranch c', rfl, fun _ => .nil,
    fun k => .some (.body (t := []) (.body (.plain .none (h1 _) (by simp)))), by rw [analyseClauses]; rfl, ?_, h3.merge hg hb,
    fun ρ rs A cb cs hS hi ho => ?_⟩
  · rw [analyseElse, analyse, analyseOpt, h2]; rfl
  · have p1 := h4 ρ rs A cb cs hS hi ho
    refine ⟨A.ind σ ++ inc, ?_⟩
    have e : translIf E σ [] (translOpt E σ (some (.elseClause (some (.body ss'))))) = nodesBy E σ (.body ss') := by
      rw [translIf, translOpt, transl, translOpt]
      show ((((nodesBy E σ (.body ss')) >>= fun ns => pure (some ns)) >>= _) : Comp P X W (List Ref)) = _
      exact nodesBy_some _
    rw [e]
    rw [merge_next]
    exact p1

/-- A clause with a condition. -/
theorem clause_made {x : Test} (hx : TestOk Γ x) {inc : Str} {is rest : List Item} {out out' : Vars → List Chunk → Option (List Chunk)}
    (h : TmplBodyMade E D σ M names tagOf strOf ext void src L β Γ inc is out)
    (h' : TmplElseMade E D σ M names tagOf strOf ext void src L β Γ rest out') (c : Ctx) (hg : c.Good L) (hb : Bound L Γ void c.binds) :
    ∃ js ls e b cls els cls' els' c1 c', rest = js ++ ls ∧
    (∀ k d, Spec.Clause M names k d (' ' :: x.source) [.group inc is] e (some b)) ∧ (∀ k, Spec.Elifs M names k js cls) ∧
    (∀ k, Spec.MaybeElse M names k ls els) ∧ analyseClauses src ((e, some b) :: cls) c = .ok (cls', c1) ∧
    analyseElse src els c1 = .ok (els', c') ∧ Grows L Γ void c c' ∧
    ∀ ρ rs A cb cs, Scene E D σ tagOf void L c.binds Γ ρ rs A → (A.ind σ).take 1 = ['\n'] →
      (x.value ρ).bind (fun t => if t then out ρ cb else out' ρ cb) = some cs →
      ∃ J, Makes tagOf strOf (bodyHand ext β rs cb) (translIf E σ cls' (translOpt E σ els')) A
        (RunsShowing E D σ tagOf ext void L c'.next c.binds Γ ρ rs A J cs) := by
  obtain ⟨e, e', t1, t2, t3⟩ := test_reads (M := M) (names := names) (E := E) (D := D) (σ := σ) (tagOf := tagOf) (I := I) hx hb.binds
  obtain ⟨ss, ss', c1, h1, h2, h3, h4⟩ := h c hg hb
  have hm := h3.merge hg hb
  obtain ⟨js, ls, cls, els, cls', els', c2, c3, g1, g2, g3, g4, g5, g6, g7⟩ := h' (c.mergeBranch c1) hm.good (hm.bound hb)
  refine ⟨js, ls, e, .body ss, cls, els, (e', some (.body ss')) :: cls', els', c2, c3, g1,
    fun k d => t1 k d _ _ (.plain .none (h1 _) (by simp)), g2, g3, ?_, g5, hm.trans g6 (fun _ h => h),
    fun ρ rs A cb cs hS hi ho => ?_⟩
  · rw [analyseClauses, analyseClause, t2]
    show ((analyseOpt src (some (.body ss)) c >>= _) >>= _) = _
    rw [analyseOpt, h2]
    show (analyseClauses src cls (c.mergeBranch c1) >>= _) = _
    rw [g4]; rfl
  · simp only [Option.bind_eq_some_iff] at ho
    obtain ⟨t, ht, ho⟩ := ho
    have hev := t3 ρ A t hS.situ ht
    have e1 : translIf E σ ((e', some (.body ss')) :: cls') (translOpt E σ els') =
        ((eval E σ e' >>= truthOf E) >>= fun b => if b then nodesBy E σ (.body ss') else translIf E σ cls' (translOpt E σ els')) := by
      rw [translIf, Comp.bind_assoc, translBranch, translOpt]
      rfl
    rw [e1]
    cases t with
    | true =>
      refine ⟨A.ind σ ++ inc, Makes.eval hev (Makes.mono (h4 ρ rs A cb cs hS hi ho) ?_)⟩
      rintro ns B ⟨es, p1, p2, p3⟩
      have := g6.step.next
      rw [merge_next] at this
      exact ⟨es, p1, p2.grow this, p3⟩
    | false =>
      obtain ⟨J, p⟩ := g7 ρ rs A cb cs (hS.to (fun _ h => h) (fun _ _ => rfl) hm.same) hi ho
      refine ⟨J, Makes.eval hev (p.mono ?_)⟩
      rintro ns B ⟨es, p1, p2, p3⟩
      exact ⟨es, p1, p2.to (fun sym hs => (hm.same sym hs).symm), p3⟩

theorem TmplElseMade.elif {m : Nat} {x : Test} (hx : TestOk Γ x) {inc : Str} {is rest : List Item} {out out' : Vars → List Chunk → Option (List Chunk)}
    (h : TmplBodyMade E D σ M names tagOf strOf ext void src L β Γ inc is out)
    (h' : TmplElseMade E D σ M names tagOf strOf ext void src L β Γ rest out') :
    TmplElseMade E D σ M names tagOf strOf ext void src L β Γ (.line m (s!!"elif " ++ x.source) :: .group inc is :: rest)
      (fun ρ cb => (x.value ρ).bind (fun t => if t then out ρ cb else out' ρ cb)) := by
  intro c hg hb
  obtain ⟨js, ls, e, b, cls, els, cls', els', c1, c', g1, g2, g3, g4, g5⟩ := clause_made hx h h' c hg hb
  subst g1
  exact ⟨.line m (s!!"elif " ++ x.source) :: ([.group inc is] ++ js), ls, (e, some b) :: cls, els, cls', els', c1, c', by simp,
    fun k => .cons (t := ' ' :: x.source) (g2 _ _) (g3 _), g4, g5⟩

theorem step_control {c c' : Ctx} {n : Nat} (h : Ctx.Step { c with control := n } c') : c.Step { c' with control := c.control } :=
  ⟨h.regular, rfl, h.hypertag, h.next, h.binds⟩

theorem TmplBlockMade.cond {x : Test} (hx : TestOk Γ x) {inc : Str} {is rest : List Item} {out out' : Vars → List Chunk → Option (List Chunk)}
    (h : TmplBodyMade E D σ M names tagOf strOf ext void src L β Γ inc is out)
    (h' : TmplElseMade E D σ M names tagOf strOf ext void src L β Γ rest out') :
    TmplBlockMade E D σ M names tagOf strOf ext void src L β Γ Γ (s!!"if " ++ x.source) (.group inc is :: rest)
      (fun ρ cb => (x.value ρ).bind (fun t => (if t then out ρ cb else out' ρ cb).map opening)) id := by
  intro c hg hb
  obtain ⟨js, ls, e, b, cls, els, cls', els', c1, c', g1, g2, g3, g4, g5, g6, g7, g8⟩ :=
    clause_made hx h h' { c with control := c.control + 1 } (hg.of rfl rfl (Nat.le_refl _)) hb
  subst g1
  have hgr : Grows L Γ void c { c' with control := c.control } := ⟨step_control g7.step, g7.good.of rfl rfl (Nat.le_refl _), g7.same⟩
  refine ⟨.ifBlock ((e, some b) :: cls) els, .ifBlock cls' els', { c' with control := c.control },
    fun k => .ifBlock (t := ' ' :: x.source) (is := [.group inc is]) (g2 _ _) (g3 _) (g4 _), .inr (fun _ => rfl), ?_, hgr, hgr.bound hb,
    fun ρ rs A cb cs hS hi ho => ?_⟩
  · rw [analyse, g5]
    show (analyseElse src els c1 >>= _) = _
    rw [g6]; rfl
  · have ho' : ∃ cs', (x.value ρ).bind (fun t => if t then out ρ cb else out' ρ cb) = some cs' ∧ opening cs' = cs := by
      simp only [Option.bind_eq_some_iff, Option.map_eq_some_iff] at ho
      obtain ⟨t, h1, cs', h2, h3⟩ := ho
      exact ⟨cs', by rw [h1]; exact h2, h3⟩
    clear ho
    obtain ⟨cs', ho, rfl⟩ := ho'
    obtain ⟨J, p⟩ := g8 ρ rs A cb cs' hS hi ho
    refine Shows.mono (Shows.control (c := translIf E σ cls' (translOpt E σ els')) ?_ p (fun _ _ h => h.1.ind)) ?_
    case refine_2 =>
      rintro _ B ⟨es, rfl, p2, p3⟩
      exact ⟨p2, p2.scene.to (fun _ h => h) (fun _ _ => rfl) hgr.same, p3.level.opening⟩
    unfold nodesBy
    rw [transl]
    simp only [Comp.bind_assoc, withIndent]
    rfl

/-! ### Loops -/

theorem forLoop_out (next : Comp P X W (Option (Val P))) (step : Val P → Comp P X W (List Ref)) (k : Nat) (out : List Ref) (em em' : Bool) :
    (forLoop next step k out em >>= fun r => pure r.1) =
      ((forLoop next step k [] em' >>= fun r => pure r.1) >>= fun rs => pure (out ++ rs)) := by
  induction k generalizing out em em' with
  | zero => simp only [forLoop]; rfl
  | succ k ih =>
    simp only [forLoop, Comp.bind_assoc]
    congr 1
    funext o
    cases o with
    | none => simp only [Comp.pure_bind, List.append_nil]
    | some v =>
      simp only [Comp.bind_assoc]
      congr 1
      funext ns
      rw [ih (out ++ ns) false false, List.nil_append]
      have := ih ns false false
      simp only [Comp.bind_assoc, Comp.pure_bind, List.append_assoc] at this ⊢
      have h2 := congrArg (fun c : Comp P X W (List Ref) => c >>= fun rs => pure (out ++ rs)) this
      simp only [Comp.bind_assoc, Comp.pure_bind] at h2
      exact h2.symm

theorem runPy_evals {α : Type} {f : PyM P X W α} {A : Store P W} {a : α} {w : W}
    (h : ∀ m, m.world = A.world → f m = .ret a { m with world := w }) : Evals (runPy E f) A a { A with world := w } := by
  rintro Mm rfl
  unfold runPy
  rw [h Mm.mem rfl]
  rfl

theorem loop_made (hL : L.Sound σ) {b : List (Str × SlotInfo)} {ρ : Vars} {rs : List Ref} {n : Slot} {i J : Str} {it : Val P}
    {step : Val P → Comp P X W (List Ref)} {out : Data → Option (List Chunk)}
    (hstep : ∀ x d A cs, D.rep x d → Scene E D σ tagOf void L b Γ ρ rs A → A.ind σ = i → out d = some cs →
      Makes tagOf strOf .none (step x) A (RunsShowing E D σ tagOf ext void L n b Γ ρ rs A J cs))
    (ps : List (Val P × Data)) (hps : ∀ p ∈ ps, D.rep p.1 p.2) (k : Nat) (hk : ps.length < k) (A : Store P W)
    (hp : D.pending A.world it (ps.map Prod.fst)) (hS : Scene E D σ tagOf void L b Γ ρ rs A) (hi : A.ind σ = i) (cs : List Chunk)
    (ho : collect (ps.map (fun p => out p.2)) = some cs) :
    Makes tagOf strOf .none (forLoop (runPy E (E.ops.next it)) step k [] true >>= fun r => pure r.1) A (fun ns B => ∃ es, Dens ext J ns es ∧
      B.ind σ = i ∧ (∀ it' l, it' ≠ it → D.pending A.world it' l → D.pending B.world it' l) ∧ Scene E D σ tagOf void L b Γ ρ rs B ∧
      Quiet σ L n A B ∧ Chunks es cs) := by
  induction ps generalizing k A cs with
  | nil =>
    cases k with
    | zero => exact absurd hk (Nat.lt_irrefl _)
    | succ k =>
      obtain ⟨w', h1, h2, h3⟩ := D.next hp
      simp only [List.map_nil, collect, Option.some.injEq] at ho
      subst ho
      simp only [forLoop, Comp.bind_assoc]
      refine Makes.eval (runPy_evals h1) ?_
      simp only [List.map_nil, List.head?_nil, Comp.pure_bind]
      exact Makes.nil _ _ ⟨[], .nil, hi, h3, hS.world hL w', fun _ _ _ => rfl, .nil⟩
  | cons p ps ih =>
    cases k with
    | zero => exact absurd hk (by simp)
    | succ k =>
      obtain ⟨w', h1, h2, h3⟩ := D.next hp
      rw [List.map_cons] at ho
      cases ho1 : out p.2 with
      | none => rw [ho1] at ho; simp [collect] at ho
      | some cs1 =>
        rw [ho1] at ho
        simp only [collect, Option.map_eq_some_iff] at ho
        obtain ⟨cs2, ho2, rfl⟩ := ho
        have p1 := hstep p.1 p.2 { A with world := w' } cs1 (hps p (List.mem_cons_self ..)) (hS.world hL w') hi ho1
        simp only [forLoop, Comp.bind_assoc]
        refine Makes.eval (runPy_evals h1) ?_
        simp only [List.map_cons, List.head?_cons, Comp.bind_assoc, List.nil_append]
        have e : (fun ns => forLoop (runPy E (E.ops.next it)) step k ns false >>= fun r => pure r.1) =
            fun ns => ((forLoop (runPy E (E.ops.next it)) step k [] true >>= fun r => pure r.1) >>= fun rs => pure (ns ++ rs)) := by
          funext ns
          exact forLoop_out _ _ k ns false true
        rw [e]
        refine Makes.append (.inl ⟨rfl, rfl⟩) p1 ?_
        rintro x A1 ⟨es1, hd1, hR, hc1⟩
        refine (ih (fun x hx => hps x (List.mem_cons_of_mem _ hx)) k (by simp at hk; omega) A1
          (hR.kept _ _ (by simpa using h2)) hR.scene (hR.ind.trans hi) cs2 ho2).mono ?_
        rintro y B ⟨es2, hd2, q2, q3, q4, q5, q6⟩
        exact ⟨es1 ++ es2, hd1.append hd2, q2, fun it' l hne hl => q3 _ _ hne (hR.kept _ _ (h3 _ _ hne hl)), q4,
          Quiet.trans (A := { A with world := w' }) hR.quiet q5 (Nat.le_refl _), hc1.append q6⟩

theorem assign_var (A : Store P W) (v : Str) (sl : Slot) (x : Val P) :
    Evals (assignTarget E σ (.many [.var v false none (some sl)]) x) A () (A.setVar σ sl x) := by
  rw [assignTarget, assignTarget]
  exact setSlot_evals A sl x

theorem analyse_var {v : Str} {c c' : Ctx} {s : SlotInfo} (h : (writeSlot c ('$' :: v) : Except (AErr I) _) = .ok (s, c')) :
    (analyseTarget (.many [.var v false none none]) c : Except (AErr I) _) = .ok (.many [.var v false none (some s.id)], c') := by
  simp [analyseTarget, analyseTargets, readSlot, h, bind, Except.bind, pure, Except.pure]

theorem collect_map {α β : Type} (f : α → β) (g : β → Option (List Chunk)) (l : List α) :
    collect (l.map (fun a => g (f a))) = collect ((l.map f).map g) := by rw [List.map_map]; rfl

theorem TmplBlockMade.loop (hL : L.Sound σ) {v x inc : Str} (hx : PathOk Γ x) (hv : VarName v) (hn : ¬ Γ v) (hbv : L.bv ≠ some v) {is : List Item} {out : Vars → List Chunk → Option (List Chunk)}
    (h : TmplBodyMade E D σ M names tagOf strOf ext void src L false (fun y => y = v ∨ Γ y) inc is out) :
    TmplBlockMade E D σ M names tagOf strOf ext void src L β Γ Γ (s!!"for " ++ (v ++ (s!!" in " ++ x))) [.group inc is]
      (fun ρ cb => (each (fun d => out (ρ.set v d) cb) (ρ.value x)).map opening) id := by
  intro c hg hb
  let c0 : Ctx := { c with control := c.control + 1 }
  have hg0 : c0.Good L := hg.of rfl rfl (Nat.le_refl _)
  obtain ⟨e, e', t1, t2, t3⟩ := path_reads (M := M) (names := names) (E := E) (D := D) (σ := σ) (tagOf := tagOf) (I := I) hx hb.binds
  obtain ⟨s, c1, w1, w2, w3, w4⟩ := writeSlot_new (I := I) (void := void) hg0 hb hv.toName hn hbv
  have hb1 := (w2.bound hb).add w3
  obtain ⟨ss, ss', c2, h1, h2, h3, h4⟩ := h c1 w2.good hb1
  have hg2 := w2.trans h3 (fun _ h => .inr h)
  have hgr : Grows L Γ void c { c2 with control := c.control } := ⟨step_control hg2.step, hg2.good.of rfl rfl (Nat.le_refl _), hg2.same⟩
  refine ⟨.forBlock (.many [.var v false .none .none]) (.root .none e) [.body ss],
    .forBlock (.many [.var v false .none (some s.id)]) (.root .none e') [.body ss'], { c2 with control := c.control }, fun k => ?_,
    .inr (fun _ => rfl), ?_, hgr, hgr.bound hb, fun ρ rs A cb cs hS hi ho => ?_⟩
  · have hl : ∀ k d, Spec.Loop M names k d (x ++ []) [.group inc is] (.root .none e) [.body ss] :=
      fun k d => .factor t1 (by simp) (.body (.plain .none (h1 _) (by simp)))
    have := Spec.Block.forBlock (k := k) (c := 1) (w := [' ']) (w1 := [' ']) (w2 := [' ']) (t := v) (t' := x ++ []) (is := [.group inc is]) (ls := [])
      (els := .none) (by simp [Blanks]) (by simp) (.one (.var hv.toName)) (by simp [Blanks]) (by simp) (by simp [Blanks]) (by simp) (hl _ _) .none
    simpa using this
  · rw [analyse]
    have t2' : analyseExpr (I := I) c0.binds (.root .none e) = .ok (.root .none e') := by
      rw [analyseExpr]
      have : analyseExpr (I := I) c0.binds e = .ok e' := t2
      rw [this]; rfl
    show (analyseExpr c0.binds (.root .none e) >>= _) = _
    rw [t2']
    show (analyseTarget _ c0 >>= _) = _
    rw [analyse_var w1]
    show (analyseFirst src [.body ss] c1 >>= _) = _
    rw [analyseFirst, h2]
    rfl
  · have ho' : ∃ ds cs', ρ.value x = some (.list ds) ∧ collect (ds.map (fun d => out (ρ.set v d) cb)) = some cs' ∧ opening cs' = cs := by
      rw [Option.map_eq_some_iff] at ho
      obtain ⟨cs', h1, h2⟩ := ho
      unfold each at h1
      split at h1
      · rename_i ds hd
        exact ⟨ds, cs', hd, h1, h2⟩
      · simp at h1
    clear ho
    obtain ⟨ds, cs', hd, ho, rfl⟩ := ho'
    obtain ⟨xv, g1, g2⟩ := t3 ρ A _ hS.situ hd
    obtain ⟨hlen, ps, hps, hrep, hit⟩ := D.iter g1
    obtain ⟨it, w', i1, i2, i3⟩ := hit A.world
    subst hps
    have hstep : ∀ (y : Val P) (d : Data) (B : Store P W) (cs : List Chunk), D.rep y d → Scene E D σ tagOf void L c.binds Γ ρ rs B → B.ind σ = A.ind σ →
        out (ρ.set v d) cb = some cs → Makes tagOf strOf .none
          (assignTarget E σ (.many [.var v false .none (some s.id)]) y >>= fun _ => nodesBy E σ (.body ss')) B
          (RunsShowing E D σ tagOf ext void L c2.next c.binds Γ ρ rs B (A.ind σ ++ inc) cs) := by
      intro y d B cs hy hSB hiB hcs
      obtain ⟨a1, a2, a3⟩ := hSB.assigned hL hn hbv w2.good w3 w4 w2.same hy
      have p1 := h4 (ρ.set v d) rs (B.setVar σ s.id y) cb cs a1 (by rw [Store.setVar_ind, hiB]; exact hi) hcs
      refine Makes.eval (assign_var B v s.id y) ?_
      unfold Shows at p1
      rw [Store.setVar_ind, hiB] at p1
      refine p1.mono ?_
      rintro ns B' ⟨es, hd, hR, hc⟩
      refine ⟨es, hd, ⟨hR.ind.trans (Store.setVar_ind _ _ _), hR.kept, ?_, a3.trans hR.quiet h3.step.next⟩, hc⟩
      refine hR.scene.to (fun _ h => .inr h) (fun y hy => ?_) (fun sym hs => (w2.same sym hs).symm)
      unfold Vars.set
      rw [if_neg]
      rintro rfl
      exact hn hy
    have q1 := loop_made hL hstep ps hrep E.fuel (by simpa using hlen) { A with world := w' } i2 (hS.world hL w') rfl cs'
      (by rw [collect_map Prod.snd (fun d => out (ρ.set v d) cb)]; exact ho)
    refine (Shows.mono (Shows.control (c := eval E σ (.root .none e') >>= fun sq => runPy E (E.ops.iter sq) >>= fun it =>
        forLoop (runPy E (E.ops.next it)) (fun y => assignTarget E σ (.many [.var v false .none (some s.id)]) y >>= fun _ => nodesBy E σ (.body ss'))
          E.fuel [] true >>= fun r => pure r.1) ?_ (Makes.eval ?_ (Makes.eval (runPy_evals i1) q1)) (fun _ _ h => h.1)) ?_).hand
    case refine_3 =>
      rintro _ B ⟨es, rfl, q2, q3, q4, q5, q6⟩
      exact ⟨⟨q2, fun it' l hl => q3 it' l (i3 it' l hl).1 (i3 it' l hl).2, q4, q5⟩, q4.to (fun _ h => h) (fun _ _ => rfl) hgr.same, q6.level.opening⟩
    · unfold nodesBy
      rw [transl]
      have e1 : lastElse [Stmt.body ss'] (translEach E σ [.body ss']) = .none := rfl
      have e2 : ∀ r : List Ref × Bool, (loopResult r .none : Comp P X W (List Ref)) = pure r.1 := by
        rintro ⟨r, b⟩; cases b <;> rfl
      have e3 : optBranch (translEach E σ [Stmt.body ss']).head? = nodesBy E σ (.body ss') := by
        rw [translEach]; rfl
      simp only [e1, e2, e3, Comp.bind_assoc, withIndent, Comp.pure_bind]
      rfl
    · have g3 := g2 (A.ind σ)
      rw [A.setInd_self] at g3
      rw [eval]
      exact qualified_rep g3 g1

/-! ### Assignments -/

theorem TmplBlockMade.set (hL : L.Sound σ) (hm : ∀ c, isMark M c = true → 0x2768 ≤ c.toNat) {v : Str} {g : Given} (hgv : GivenOk M Γ g) (hv : VarName v) (hn : ¬ Γ v)
    (hbv : L.bv ≠ some v) :
    TmplBlockMade E D σ M names tagOf strOf ext void src L β Γ (fun y => y = v ∨ Γ y) (s!!"$ " ++ (v ++ (s!!" = " ++ g.source))) []
      (fun ρ _ => if (g.value ρ).isSome then some [] else .none) (fun ρ => match g.value ρ with | some d => ρ.set v d | .none => ρ) := by
  intro c hg hb
  obtain ⟨e, e', t1, t2, t3⟩ := given_reads (M := M) (names := names) (E := E) (D := D) (σ := σ) (tagOf := tagOf) (I := I) hm hgv hb.binds
  obtain ⟨s, c1, w1, w2, w3, w4⟩ := writeSlot_new (I := I) (void := void) hg hb hv.toName hn hbv
  have hb1 := (w2.bound hb).add w3
  refine ⟨.assign (.many [.var v false .none .none]) .none (.root .none e), .assign (.many [.var v false .none (some s.id)]) .none e', c1,
    fun k => ?_, .inr (fun _ => rfl), ?_, w2, hb1, fun ρ rs A cb cs hS hi ho => ?_⟩
  · have := Spec.Block.assign (k := k) (c := 1) (w := [' ']) (w1 := [' ']) (w2 := [' ']) (t := v) (x := g.source) (r := [])
      (M := M) (names := names) (P := P) (by simp [Blanks]) (.one (.var hv.toName)) (by simp [Blanks]) (by simp [Blanks]) (.one (t1.upTo (by omega) (by omega))) .none
    simpa using this
  · rw [analyse, t2]
    show (analyseTarget _ c >>= _) = _
    rw [analyse_var w1]
    rfl
  · simp only [Option.ite_none_right_eq_some, Option.some.injEq] at ho
    obtain ⟨hs, rfl⟩ := ho
    obtain ⟨d, hd⟩ := Option.isSome_iff_exists.1 hs
    obtain ⟨y, g1, g2⟩ := t3 ρ A d hS.situ hd
    obtain ⟨a1, a2, a3⟩ := hS.assigned hL hn hbv w2.good w3 w4 w2.same g1
    refine (Shows.mono (Shows.none (o := .none) (A' := A.setVar σ s.id y) [] ?_ rfl) ?_).hand
    case refine_2 =>
      rintro _ _ ⟨rfl, rfl⟩
      exact ⟨⟨Store.setVar_ind _ _ _, fun _ _ h => h, a2, a3⟩, by simp only [hd]; exact a1, .nil⟩
    rw [transl]
    refine Evals.bind g2 ?_
    simp only [inplace, Comp.pure_bind]
    exact Evals.bind (assign_var A v s.id y) (Evals.pure _ _)

/-! ### Components -/

theorem argValues_names {ρ : Vars} {args : List (Str × Given)} {vs : List (Str × Data)} (h : argValues ρ args = some vs) :
    vs.map Prod.fst = args.map Prod.fst := by
  induction args generalizing vs with
  | nil => simp only [argValues, Option.some.injEq] at h; subst h; rfl
  | cons a args ih =>
    obtain ⟨y, g⟩ := a
    simp only [argValues, Option.bind_eq_some_iff, Option.map_eq_some_iff] at h
    obtain ⟨d, _, vs', h', rfl⟩ := h
    simp [ih h']

/-- A component around a body. -/
theorem call_made (hL : L.Sound σ) (hH : HyperOk E D σ tagOf strOf ext L) (hm : ∀ c, isMark M c = true → 0x2768 ≤ c.toNat) {n : Str} {id' : DefId} {sig : Sig}
    {f : List (Str × Data) → List Chunk → Option (List Chunk)} (hf : L.hyper n = some (id', sig, f)) {args : List (Str × Given)}
    (hargs : ArgsOk M Γ sig.params args) {c : Ctx} (hg : c.Good L) (hb : Bound L Γ void c.binds) {t' : Str} {is : List Item}
    {body body' : Stmt P} {c1 : Ctx} (ht : t'.head? ≠ some '!') (hs : ∀ k, Spec.StructBody M names k (1 + (callSource n args).length) t' is body)
    (ha : analyse src body { c with regular := c.regular + 1 } = .ok (body', c1))
    (hst : Ctx.Step { c with regular := c.regular + 1 } c1) :
    ∃ s s', (∀ k, Spec.Block M names k 1 (callSource n args ++ t') is s) ∧
      (s = .comment ∨ ∀ c : Ctx, leaveProlog s c = { c with prolog := false }) ∧ analyse src s c = .ok (s', c.leave c1) ∧
      Grows L Γ void c (c.leave c1) ∧ Bound L Γ void (c.leave c1).binds ∧
      ∀ H ρ rs A inc vs cb cs, argValues ρ args = some vs → f vs cb = some cs → (A.ind σ).take 1 = ['\n'] →
        Shows E σ tagOf strOf ext H body' A inc (fun es B => Runs E D σ tagOf void L c1.next c.binds Γ ρ rs A B ∧ Chunks (outlineFirst es) cb ∧
          (sig.body = false → es = [])) →
        Shows E σ tagOf strOf ext H s' A [] (fun ns B => Runs E D σ tagOf void L (c.leave c1).next c.binds Γ ρ rs A B ∧
          Scene E D σ tagOf void L (c.leave c1).binds Γ (id ρ) rs B ∧ Chunks (outlineFirst ns) cs) := by
  obtain ⟨sl, hsl⟩ := hb.sees _ (.inr (.inl ⟨n, _, hf, rfl⟩))
  obtain ⟨x, ns', h1, h2, h3⟩ := call_read (names := names) (E := E) (D := D) (σ := σ) (tagOf := tagOf) (I := I) hm hb.binds (hH.name n _ hf) hsl
    (hH.params n _ hf) hargs
  have hgr : Grows L Γ void c (c.leave c1) := Grows.leave (c1 := { c with regular := c.regular + 1 }) hg rfl rfl rfl hst
  refine ⟨.struct [x] body, .struct [.tag n (some sl.id) [] ns'] body', fun k => .struct (.tags h1 (fun h => absurd h ht) (by simp) (hs _)),
    .inr (fun _ => rfl), ?_, hgr, hgr.bound hb, fun H ρ rs A inc vs cb cs hvs ho hi hsh => ?_⟩
  · rw [analyse, h2]
    show (analyse src body { c with regular := c.regular + 1 } >>= _) = _
    rw [ha]; rfl
  · -- the names of the arguments
    have hk := argValues_names hvs
    refine Shows.mono (Shows.call (L := L) (Z := fun B => Runs E D σ tagOf void L c1.next c.binds Γ ρ rs A B) (hH.uses n id' sig f hf)
      (by rw [hk]; exact hargs.distinct) (fun a ha => ?_) (by rw [hk]; exact hargs.given) ho hi (Shows.mono hsh ?_)) ?_
    · have : a.1 ∈ args.map Prod.fst := by rw [← hk]; exact List.mem_map_of_mem ha
      obtain ⟨a', ha', he⟩ := List.mem_map.1 this
      exact he ▸ hargs.known a' ha'
    · rintro es B ⟨hR, hc, hne⟩
      obtain ⟨sl', e1, e2⟩ := hR.scene.hypers n id' sig f hf
      rw [hsl] at e1
      cases e1
      exact ⟨hR.ind, hR.scene.base, e2, (h3 ρ B vs hR.scene.situ hvs).2, hc, hne, hR⟩
    · rintro es B ⟨hi', hc, B', hR, hkp, hv⟩
      have hS : Scene E D σ tagOf void L c.binds Γ ρ rs B :=
        hR.scene.change hL (fun sym sl _ hl => hv _ (hg.pub _ (lookupBind_mem hl))) (fun sl hf => hv _ (fun hp => hL.apart _ hp hf))
      exact ⟨⟨hi', hR.kept.trans hkp, hS, fun sl h1 h2 => (hv sl h1).trans (hR.quiet sl h1 h2)⟩,
        hS.to (fun _ h => h) (fun _ _ => rfl) hgr.same, hc⟩

section
variable (hL : L.Sound σ) (hH : HyperOk E D σ tagOf strOf ext L) (hm : ∀ c, isMark M c = true → 0x2768 ≤ c.toNat)
  {n : Str} {id' : DefId} {sig : Sig} {f : List (Str × Data) → List Chunk → Option (List Chunk)} (hf : L.hyper n = some (id', sig, f))
  {args : List (Str × Given)} (hargs : ArgsOk M Γ sig.params args)
include hL hH hm hf hargs

theorem TmplBlockMade.call :
    TmplBlockMade E D σ M names tagOf strOf ext void src L β Γ Γ (callSource n args) [] (fun ρ _ => (argValues ρ args).bind (fun vs => f vs [])) id := by
  intro c hg hb
  obtain ⟨s, s', k1, k2, k3, k4, k5, k6⟩ := call_made (L := L) (D := D) (σ := σ) (E := E) (tagOf := tagOf) (strOf := strOf) (ext := ext) (src := src)
    (names := names) hL hH hm hf hargs hg hb (t' := []) (is := []) (body := .body []) (body' := .body []) (by simp)
    (fun k => .plain .none) (by rw [analyse, analyseAll]; rfl) (.refl _)
  refine ⟨s, s', _, by simpa using k1, k2, k3, k4, k5, fun ρ rs A cb cs hS hi ho => ?_⟩
  simp only [Option.bind_eq_some_iff] at ho
  obtain ⟨vs, hvs, ho⟩ := ho
  refine k6 _ ρ rs A [] vs [] cs hvs ho hi ((Shows.mono (Shows.nothing A) ?_).hand)
  rintro _ _ ⟨rfl, rfl⟩
  exact ⟨.refl hS, .nil, fun _ => rfl⟩

theorem TmplBlockMade.callInline (hE : EscapesHtml E) (hbd : sig.body = true) {ct : Content} (h : ContentWritable M (PathOk Γ) ct) :
    TmplBlockMade E D σ M names tagOf strOf ext void src L β Γ Γ (callSource n args ++ ' ' :: ct.source) []
      (fun ρ _ => if ρ.shows ct then (argValues ρ args).bind (fun vs => f vs [.block [ct.html ρ.env]]) else none) id := by
  intro c hg hb
  let J := { p : Vars × Store P W // Situ E D σ tagOf void c.binds Γ p.1 p.2 ∧ p.1.shows ct = true }
  obtain ⟨hk, hn⟩ := content_known (names := names) (I := I) (J := J) (ρ := fun j => j.1.1) (B := fun j => j.1.2) h hb.binds (fun j => j.2.1) (fun j => j.2.2)
  obtain ⟨kd, t, l, l', h1, h2, h3, h5⟩ := content_read hm hE hk hn
  obtain ⟨s, s', k1, k2, k3, k4, k5, k6⟩ := call_made (L := L) (D := D) (σ := σ) (E := E) (tagOf := tagOf) (strOf := strOf) (ext := ext) (src := src)
    (names := names) hL hH hm hf hargs hg hb (t' := ' ' :: ct.source) (is := [])
    (body := .text (1 + (callSource n args).length + 1) [.line l]) (body' := .text (1 + (callSource n args).length + 1) [.line l']) (by simp)
    (fun k => by rw [h1]; exact .text (w := [' ']) (by simp [Blanks]) (.text (.some h2) .none))
    (by rw [analyse]; simp only [analyseItems, analyseItem, h3]; rfl) (.refl _)
  refine ⟨s, s', _, k1, k2, k3, k4, k5, fun ρ rs A cb cs hS hi ho => ?_⟩
  simp only [Option.ite_none_right_eq_some, Option.bind_eq_some_iff] at ho
  obtain ⟨hp', vs, hvs, ho⟩ := ho
  have hev := h5 ⟨(ρ, A), hS.situ, hp'⟩ (A.ind σ) (1 + (callSource n args).length + 1) (by omega)
  have hn' := hn ⟨(ρ, A), hS.situ, hp'⟩
  simp only [A.setInd_self] at hev hn'
  refine k6 _ ρ rs A [] vs _ cs hvs ho hi ((Shows.mono (Shows.text hev rfl) ?_).hand)
  rintro _ _ ⟨rfl, rfl⟩
  exact ⟨.refl hS, chunks_one (by simp [flat]) (by simpa using hn'), fun hb' => by rw [hbd] at hb'; simp at hb'⟩

theorem TmplBlockMade.callNested (hbd : sig.body = true) {inc : Str} {is : List Item} {out : Vars → List Chunk → Option (List Chunk)}
    (h : TmplBodyMade E D σ M names tagOf strOf ext void src L β Γ inc is out) :
    TmplBlockMade E D σ M names tagOf strOf ext void src L β Γ Γ (callSource n args) [.group inc is]
      (fun ρ cb => (out ρ cb).bind (fun cs => (argValues ρ args).bind (fun vs => f vs (opening cs)))) id := by
  intro c hg hb
  obtain ⟨ss, ss', c', h1, h2, h3, h4⟩ := h { c with regular := c.regular + 1 } (hg.of rfl rfl (Nat.le_succ _)) hb
  obtain ⟨s, s', k1, k2, k3, k4, k5, k6⟩ := call_made (L := L) (D := D) (σ := σ) (E := E) (tagOf := tagOf) (strOf := strOf) (ext := ext) (src := src)
    (names := names) hL hH hm hf hargs hg hb (t' := []) (is := [.group inc is]) (by simp) (fun k => .plain (h1 _)) h2 h3.step
  refine ⟨s, s', _, by simpa using k1, k2, k3, k4, k5, fun ρ rs A cb cs hS hi ho => ?_⟩
  simp only [Option.bind_eq_some_iff] at ho
  obtain ⟨cs', hcs, vs, hvs, ho⟩ := ho
  refine k6 _ ρ rs A inc vs _ cs hvs ho hi (Shows.mono (h4 ρ rs A cb cs' hS hi hcs) ?_)
  rintro es B ⟨hR, hc⟩
  exact ⟨hR, hc.opening, fun hb' => by rw [hbd] at hb'; simp at hb'⟩

end

theorem outlineFirst_level (es : List Entry) : outlineFirst (es.map (fun e => { e with place := .level })) =
    (outlineFirst es).map (fun e => { e with place := .level }) := by
  cases es <;> rfl

/-- The body of a component. -/
theorem TmplBlockMade.embed {v : Str} (hv : VarName v) (hbv : L.bv = some v) :
    TmplBlockMade E D σ M names tagOf strOf ext void src L true Γ Γ (s!!"@ " ++ v) [] (fun _ cb => some cb) id := by
  intro c hg hb
  obtain ⟨sl, hsl⟩ := hb.sees _ (.inr (.inr ⟨v, hbv, rfl⟩))
  refine ⟨.embed (.root none (.varUse v none)), .embed (.root none (.varUse v (some sl.id))), c, fun k => ?_, .inr (fun _ => rfl), ?_, .refl hg, hb,
    fun ρ rs A cb cs hS hi ho => ?_⟩
  · have := Spec.TextBlock.embed (M := M) (names := names) (P := P) (c := 1) (w := [' ']) (r := []) (by simp [Blanks])
      ((Spec.Written.var hv).upTo (by omega) (by omega)) .none
    exact .struct (.text (by simpa using this))
  · rw [analyse, analyseExpr, analyseExpr]
    simp only [resolve, hsl]
    rfl
  · cases ho
    obtain ⟨sl', e1, e2⟩ := hS.body v hbv
    rw [hsl] at e1
    cases e1
    have hev : Evals (eval E σ (.root .none (.varUse v (some sl.id)))) A (.dom rs) A := by
      rw [eval, eval]
      refine qualified_none (t := decide (rs ≠ [])) ?_ (Evals.pure _ _)
      intro Mm hM
      have : (Mm.states σ).values sl.id = some (.dom rs) := by
        have : Mm.states = A.states := by rw [← hM]; rfl
        rw [this]
        exact e2
      have h5 : (getSlot σ sl.id : Comp P X W _) Mm = (.ok (some (.dom rs)), Mm) := by
        unfold getSlot; rw [this]
      simp only [readName]
      rw [Comp.bind_ok h5, ← hM]; rfl
    unfold Shows
    have e : nodesBy E σ (.embed (.root .none (.varUse v (some sl.id)))) = (eval E σ (.root .none (.varUse v (some sl.id))) >>= fun x =>
        (asSequence E x >>= fun ns => (curIndent σ >>= fun ind => setIndent ind ns >>= fun _ => pure ns))) := by
      unfold nodesBy
      rw [transl]
      simp only [Comp.bind_assoc, withIndent]
      rfl
    rw [e]
    refine Makes.eval hev ?_
    simp only [asSequence, Comp.pure_bind]
    refine Makes.eval (curIndent_evals A) ?_
    have ht := transforms_indent (X := X) (tagOf := tagOf) (strOf := strOf) (A.ind σ) A (Showing ext cb) (by
      rintro ns ⟨J, es, hd, -⟩
      exact (hd.indent _).1) rs
    refine Makes.mono ht ?_
    rintro _ _ ⟨rfl, ms, rfl, J, es, hd, hc⟩
    refine ⟨_, by rw [List.append_nil]; exact (hd.indent _).2, .refl hS, hS, ?_⟩
    rw [outlineFirst_level]
    exact hc.level

/-! ### Templates -/

theorem scope_sub (b : TmplBlock) (Γ : Str → Prop) (y : Str) (h : Γ y) : b.scope Γ y := by
  cases b <;> first | exact h | exact .inr h

theorem after_same {sigs : Sigs} {bv : Option Str} {b : TmplBlock} (h : b.Ok M void sigs bv Γ β) (ρ : Vars) (y : Str) (hy : Γ y) :
    b.after ρ y = ρ y := by
  cases b <;> try rfl
  rename_i v g
  simp only [TmplBlock.after]
  cases g.value ρ with
  | none => rfl
  | some d =>
    show Vars.set ρ v d y = _
    unfold Vars.set
    rw [if_neg]
    rintro rfl
    rw [TmplBlock.Ok] at h
    exact h.2.2.1 hy

/-- The components of a setting. -/
def Setting.lib (L : Setting P W) : Lib := fun n vs cb => (L.hyper n).bind (fun h => h.2.2 vs cb)
def Setting.sigs (L : Setting P W) : Sigs := fun n => (L.hyper n).map (fun h => h.2.1)

theorem sigs_some {n : Str} {sig : Sig} (h : L.sigs n = some sig) : ∃ id f, L.hyper n = some (id, sig, f) ∧ L.lib n = f := by
  unfold Setting.sigs at h
  rw [Option.map_eq_some_iff] at h
  obtain ⟨⟨id, sig', f⟩, h1, h2⟩ := h
  simp only at h2
  subst h2
  refine ⟨id, f, h1, ?_⟩
  funext vs cb
  simp [Setting.lib, h1]

section
variable (hL : L.Sound σ) (hH : HyperOk E D σ tagOf strOf ext L) (hm : ∀ c, isMark M c = true → 0x2768 ≤ c.toNat) (hE : EscapesHtml E)
include hL hH hm hE

set_option linter.unusedSectionVars false in
mutual
theorem Tmpl.made : ∀ (T : Tmpl) (Γ : Str → Prop) (β : Bool), T.Ok M void L.sigs L.bv Γ β →
    TmplMade E D σ M names tagOf strOf ext void src L β Γ T.items (T.out (fun n => (void n).getD false) L.lib)
  | .nil, Γ, β, h => by
    have : Tmpl.out (fun n => (void n).getD false) L.lib .nil = fun _ _ => some [] := by funext ρ cb; rw [Tmpl.out]
    rw [this, Tmpl.items]
    exact .nil
  | .cons m b rest, Γ, β, h => by
    rw [Tmpl.Ok] at h
    have e : Tmpl.out (fun n => (void n).getD false) L.lib (.cons m b rest) = fun ρ cb => (b.out (fun n => (void n).getD false) L.lib ρ cb).bind (fun a =>
        (rest.out (fun n => (void n).getD false) L.lib (b.after ρ) cb).map (fun r => gap m ++ (a ++ r))) := by funext ρ cb; rw [Tmpl.out]
    rw [e, Tmpl.items]
    rcases h with h | h
    · exact .cons (.inl ⟨rfl, rfl⟩) (TmplBlock.made b Γ _ h.1) (Tmpl.made rest _ _ h.2) (scope_sub b Γ) (after_same h.1)
    · exact .cons (.inr ⟨rfl, rfl⟩) (TmplBlock.made b Γ _ h.1) (Tmpl.made rest _ _ h.2) (scope_sub b Γ) (after_same h.1)
theorem TmplBlock.made : ∀ (b : TmplBlock) (Γ : Str → Prop) (β : Bool), b.Ok M void L.sigs L.bv Γ β →
    TmplBlockMade E D σ M names tagOf strOf ext void src L β Γ (b.scope Γ) b.source b.under (b.out (fun n => (void n).getD false) L.lib) (fun ρ => b.after ρ)
  | .text c, Γ, β, h => by
    rw [TmplBlock.Ok] at h
    have e : TmplBlock.out (fun n => (void n).getD false) L.lib (.text c) = fun ρ _ => if ρ.shows c then some [.block [c.html ρ.env]] else none := by
      funext ρ cb; rw [TmplBlock.out]
    rw [e, TmplBlock.under]
    · exact .text hm hE h
    all_goals simp
  | .inline es c, Γ, β, h => by
    rw [TmplBlock.Ok] at h
    have e : TmplBlock.out (fun n => (void n).getD false) L.lib (.inline es c) = fun ρ _ =>
        if ρ.opens es ∧ ρ.shows c then some [.block [startTags ρ.env es ++ (c.html ρ.env ++ endTags es)]] else none := by
      funext ρ cb; rw [TmplBlock.out]
    rw [e, TmplBlock.under]
    · exact .inline hm hE h.1 h.2
    all_goals simp
  | .empty es, Γ, β, h => by
    rw [TmplBlock.Ok] at h
    have e : TmplBlock.out (fun n => (void n).getD false) L.lib (.empty es) = fun ρ _ =>
        if ρ.opens es then some [.block [emptyTags (fun n => (void n).getD false) ρ.env es]] else none := by funext ρ cb; rw [TmplBlock.out]
    rw [e, TmplBlock.under]
    · exact .empty hm h
    all_goals simp
  | .nested es inc body, Γ, β, h => by
    rw [TmplBlock.Ok] at h
    have e : TmplBlock.out (fun n => (void n).getD false) L.lib (.nested es inc body) = fun ρ cb =>
        if ρ.opens es then (body.out (fun n => (void n).getD false) L.lib ρ cb).map (fun cs => [.block (aroundLines (fun n => (void n).getD false) ρ.env es inc (chunkLines cs))]) else none := by
      funext ρ cb; rw [TmplBlock.out]
    rw [e, TmplBlock.under]
    exact .nested hm h.1 h.2.1 (TmplMade.body hL h.2.1 h.2.2.1 h.2.2.2.1 (Tmpl.made body Γ _ h.2.2.2.2))
  | .comment s, Γ, β, h => by
    rw [TmplBlock.Ok] at h
    have e : TmplBlock.out (fun n => (void n).getD false) L.lib (.comment s) = fun _ _ => some [] := by funext ρ cb; rw [TmplBlock.out]
    rw [e, TmplBlock.under]
    · exact .comment h
    all_goals simp
  | .cond x inc body more, Γ, β, h => by
    rw [TmplBlock.Ok] at h
    have e : TmplBlock.out (fun n => (void n).getD false) L.lib (.cond x inc body more) = fun ρ cb =>
        (x.value ρ).bind (fun t => (if t then body.out (fun n => (void n).getD false) L.lib ρ cb else more.out (fun n => (void n).getD false) L.lib ρ cb).map opening) := by
      funext ρ cb; rw [TmplBlock.out]
    rw [e, TmplBlock.under]
    exact .cond h.1 (TmplMade.body hL h.2.1 h.2.2.1 h.2.2.2.1 (Tmpl.made body Γ _ h.2.2.2.2.1)) (TmplElse.made more Γ _ h.2.2.2.2.2)
  | .loop v x inc body, Γ, β, h => by
    rw [TmplBlock.Ok] at h
    have e : TmplBlock.out (fun n => (void n).getD false) L.lib (.loop v x inc body) = fun ρ cb =>
        (each (fun d => body.out (fun n => (void n).getD false) L.lib (ρ.set v d) cb) (ρ.value x)).map opening := by funext ρ cb; rw [TmplBlock.out]
    rw [e, TmplBlock.under]
    exact .loop hL h.1 h.2.1 h.2.2.1 h.2.2.2.1 (TmplMade.body hL h.2.2.2.2.1 h.2.2.2.2.2.1 h.2.2.2.2.2.2.1 (Tmpl.made body _ _ h.2.2.2.2.2.2.2))
  | .set v g, Γ, β, h => by
    rw [TmplBlock.Ok] at h
    have e : TmplBlock.out (fun n => (void n).getD false) L.lib (.set v g) = fun ρ _ => if (g.value ρ).isSome then some [] else none := by
      funext ρ cb; rw [TmplBlock.out]
    rw [e, TmplBlock.under]
    · exact .set hL hm h.1 h.2.1 h.2.2.1 h.2.2.2
    all_goals simp
  | .call n args, Γ, β, h => by
    rw [TmplBlock.Ok] at h
    obtain ⟨sig, h1, h2⟩ := h
    obtain ⟨id', f, h3, h4⟩ := sigs_some h1
    have e : TmplBlock.out (fun n => (void n).getD false) L.lib (.call n args) = fun ρ _ => (argValues ρ args).bind (fun vs => f vs []) := by
      funext ρ cb; rw [TmplBlock.out, h4]
    rw [e, TmplBlock.under]
    · exact .call hL hH hm h3 h2
    all_goals simp
  | .callInline n args c, Γ, β, h => by
    rw [TmplBlock.Ok] at h
    obtain ⟨⟨sig, h1, hb, h2⟩, hc⟩ := h
    obtain ⟨id', f, h3, h4⟩ := sigs_some h1
    have e : TmplBlock.out (fun n => (void n).getD false) L.lib (.callInline n args c) = fun ρ _ =>
        if ρ.shows c then (argValues ρ args).bind (fun vs => f vs [.block [c.html ρ.env]]) else none := by
      funext ρ cb; rw [TmplBlock.out, h4]
    rw [e, TmplBlock.under]
    · exact .callInline hL hH hm h3 h2 hE hb hc
    all_goals simp
  | .callNested n args inc body, Γ, β, h => by
    rw [TmplBlock.Ok] at h
    obtain ⟨⟨sig, h1, hb, h2⟩, hc⟩ := h
    obtain ⟨id', f, h3, h4⟩ := sigs_some h1
    have e : TmplBlock.out (fun n => (void n).getD false) L.lib (.callNested n args inc body) = fun ρ cb =>
        (body.out (fun n => (void n).getD false) L.lib ρ cb).bind (fun cs => (argValues ρ args).bind (fun vs => f vs (opening cs))) := by
      funext ρ cb; rw [TmplBlock.out, h4]
    rw [e, TmplBlock.under]
    exact .callNested hL hH hm h3 h2 hb (TmplMade.body hL hc.1 hc.2.1 hc.2.2.1 (Tmpl.made body Γ _ hc.2.2.2))
  | .embed v, Γ, β, h => by
    rw [TmplBlock.Ok] at h
    obtain ⟨rfl, h1, h2⟩ := h
    have e : TmplBlock.out (fun n => (void n).getD false) L.lib (.embed v) = fun _ cb => some cb := by funext ρ cb; rw [TmplBlock.out]
    rw [e, TmplBlock.under]
    · exact .embed h2 h1
    all_goals simp
theorem TmplElse.made : ∀ (e : TmplElse) (Γ : Str → Prop) (β : Bool), e.Ok M void L.sigs L.bv Γ β →
    TmplElseMade E D σ M names tagOf strOf ext void src L β Γ e.items (e.out (fun n => (void n).getD false) L.lib)
  | .none, Γ, β, h => by
    have e : TmplElse.out (fun n => (void n).getD false) L.lib .none = fun _ _ => some [] := by funext ρ cb; rw [TmplElse.out]
    rw [e, TmplElse.items]
    exact .none
  | .els m inc body, Γ, β, h => by
    rw [TmplElse.Ok] at h
    have e : TmplElse.out (fun n => (void n).getD false) L.lib (.els m inc body) = body.out (fun n => (void n).getD false) L.lib := by funext ρ cb; rw [TmplElse.out]
    rw [e, TmplElse.items]
    exact .els (TmplMade.body hL h.1 h.2.1 h.2.2.1 (Tmpl.made body Γ _ h.2.2.2))
  | .elif m x inc body more, Γ, β, h => by
    rw [TmplElse.Ok] at h
    have e : TmplElse.out (fun n => (void n).getD false) L.lib (.elif m x inc body more) = fun ρ cb =>
        (x.value ρ).bind (fun t => if t then body.out (fun n => (void n).getD false) L.lib ρ cb else more.out (fun n => (void n).getD false) L.lib ρ cb) := by
      funext ρ cb; rw [TmplElse.out]
    rw [e, TmplElse.items]
    exact .elif h.1 (TmplMade.body hL h.2.1 h.2.2.1 h.2.2.2.1 (Tmpl.made body Γ _ h.2.2.2.2.1)) (TmplElse.made more Γ _ h.2.2.2.2.2)
end

end
end
end Verif
