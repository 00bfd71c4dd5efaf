import Verif.Lemmas.TemplateCtx
import Verif.Lemmas.Fit

/-! Parts of the output of templates, and uses of components. -/

namespace Verif
open Py Spec Ctx

/-! ### Parts of the output -/

/-- An entry shows a part of the output. -/
inductive EntryIs : Entry → Chunk → Prop
  | gap {p : Place} {x : Bool} {m : Nat} : p ≠ .flush → EntryIs ⟨x, p, List.replicate m '\n'⟩ (.gap x m)
  | block {s : Str} {ls : List Str} : '\n' :: s = flat ls → (∀ l ∈ ls, '\n' ∉ l) → EntryIs ⟨true, .level, s⟩ (.block ls)

/-- The same for lists. -/
inductive Chunks : List Entry → List Chunk → Prop
  | nil : Chunks [] []
  | cons {e : Entry} {c : Chunk} {es : List Entry} {cs : List Chunk} : EntryIs e c → Chunks es cs → Chunks (e :: es) (c :: cs)

theorem Chunks.append {es es' : List Entry} {cs cs' : List Chunk} (h : Chunks es cs) (h' : Chunks es' cs') : Chunks (es ++ es') (cs ++ cs') := by
  induction h with
  | nil => exact h'
  | cons h1 _ ih => exact .cons h1 ih

theorem Chunks.level {es : List Entry} {cs : List Chunk} (h : Chunks es cs) : Chunks (es.map (fun e => { e with place := .level })) cs := by
  induction h with
  | nil => exact .nil
  | cons h1 _ ih =>
    refine .cons ?_ ih
    cases h1 with
    | gap _ => exact .gap (by simp)
    | block h1 h2 => exact .block h1 h2

theorem Chunks.opening {es : List Entry} {cs : List Chunk} (h : Chunks es cs) : Chunks (outlineFirst es) (opening cs) := by
  cases h with
  | nil => exact .nil
  | cons h1 h2 =>
    cases h1 with
    | gap h => exact .cons (.gap h) h2
    | block h h' => exact .cons (.block h h') h2

theorem flat_gap (m : Nat) : flat (List.replicate m []) = List.replicate m '\n' := by
  induction m with
  | zero => rfl
  | succ m ih => rw [List.replicate_succ, List.replicate_succ, ← ih]; rfl

theorem EntryIs.oneLine {e : Entry} {c : Chunk} (h : EntryIs e c) : ∀ l ∈ c.lines, '\n' ∉ l := by
  cases h with
  | gap _ =>
    intro l hl
    rw [Chunk.lines, List.mem_replicate] at hl
    simp [hl.2]
  | block _ h => exact h

theorem EntryIs.shown {e : Entry} {c : Chunk} (h : EntryIs e c) (inc : Str) (hinc : '\n' ∉ inc) :
    e.shown inc = flat (c.lines.map (shift inc)) := by
  have ho := h.oneLine
  cases h with
  | gap hp =>
    rename_i p x m
    have e1 : (Chunk.gap x m).lines.map (shift inc) = (Chunk.gap x m).lines := by simp [Chunk.lines, shift]
    have e2 : Entry.full ⟨x, p, List.replicate m '\n'⟩ = flat (Chunk.gap x m).lines := by
      have : (Chunk.gap x m).lines = List.replicate (if x then m + 1 else m) [] := rfl
      rw [this, flat_gap]
      cases x <;> simp [Entry.full, List.replicate_succ]
    cases p with
    | flush => exact absurd rfl hp
    | bare => rw [e1, ← e2]; rfl
    | level =>
      rw [← addIndent_flat _ _ ho hinc, ← e2]; rfl
  | block h1 h2 =>
    show addIndent _ inc = _
    rw [← addIndent_flat _ _ ho hinc]
    show addIndent _ inc = addIndent (flat _) inc
    rw [Chunk.lines, ← h1]; rfl

theorem Chunks.shown {es : List Entry} {cs : List Chunk} (h : Chunks es cs) (inc : Str) (hinc : '\n' ∉ inc) :
    shownAll inc es = flat ((chunkLines cs).map (shift inc)) := by
  induction h with
  | nil => rfl
  | cons h1 _ ih =>
    show Entry.shown inc _ ++ shownAll inc _ = flat ((Chunk.lines _ ++ chunkLines _).map (shift inc))
    rw [List.map_append, flat_append, ih, h1.shown inc hinc]

theorem Chunks.oneLine {es : List Entry} {cs : List Chunk} (h : Chunks es cs) : ∀ l ∈ chunkLines cs, '\n' ∉ l := by
  induction h with
  | nil => simp [chunkLines]
  | cons h1 _ ih =>
    intro l hl
    rcases List.mem_append.1 (show l ∈ Chunk.lines _ ++ chunkLines _ from hl) with hl | hl
    · exact h1.oneLine l hl
    · exact ih l hl

theorem chunks_margin (m : Nat) : Chunks (marginEntry (List.replicate m '\n')) (gap m) := by
  cases m with
  | zero => exact .nil
  | succ m => exact .cons (.gap (by simp)) .nil

theorem chunks_one {s : Str} {ls : List Str} (h : '\n' :: s = flat ls) (hl : ∀ l ∈ ls, '\n' ∉ l) :
    Chunks (outlineFirst [⟨false, .level, s⟩]) [.block ls] := .cons (.block h hl) .nil

/-! ### Components -/

section
variable {P X W I : Type} (E : Env P X W) (D : PyData E.ops E.fuel) (σ : StateId) (tagOf : P → TagObj) (strOf : Val P → Str)
  (ext : Nat → Except RenderErr Str → List AttrVal → List (Str × AttrVal) → Except RenderErr Str) (L : Setting P W)

/-- Trees of nodes that show the parts `cs` of the output, in a new line. -/
def Showing (cs : List Chunk) (ns : List Node) : Prop := ∃ J es, Dens ext J ns es ∧ Chunks (outlineFirst es) cs

/-- Arguments are represented. -/
def ArgsRep {E : Env P X W} (D : PyData E.ops E.fuel) (vs : List (Str × Data)) (kw : Dict Str (Val P)) : Prop := All₂ (fun a k => k.1 = a.1 ∧ D.rep k.2 a.2) vs kw

/-- A use of a component outputs what the component stands for. -/
def Uses (id : DefId) (sig : Sig) (f : List (Str × Data) → List Chunk → Option (List Chunk)) : Prop :=
  ∀ (A : Store P W) vs kw cb cs, L.base A → (A.ind σ).take 1 = ['\n'] → ArgsRep D vs kw → (vs.map Prod.fst).Nodup →
    (∀ a ∈ vs, a.1 ∈ sig.params.map Prod.fst) → (∀ q ∈ sig.params, q.2 = false → q.1 ∈ vs.map Prod.fst) → f vs cb = some cs →
    Transforms tagOf strOf (fun rs => E.expand (.defn id) (.dom rs) [] kw σ) A (fun ns => Showing ext cb ns ∧ (sig.body = false → ns = []))
      (fun ns B => (∃ t, Dens ext (A.ind σ) ns [⟨false, .level, t⟩] ∧ Chunks [⟨true, .level, t⟩] cs) ∧ B.ind σ = A.ind σ ∧ Kept D A B ∧
        ∀ sl, ¬ L.priv sl → (B.states σ).values sl = (A.states σ).values sl)

/-- All components can be used. -/
structure HyperOk : Prop where
  name : ∀ n h, L.hyper n = some h → TagName n
  params : ∀ n h, L.hyper n = some h → ∀ q ∈ h.2.1.params, XmlName q.1
  uses : ∀ n id sig f, L.hyper n = some (id, sig, f) → Uses E D σ tagOf strOf ext L id sig f

variable {E D σ tagOf strOf ext L} {M : Marks} {names : Str → Option Char} {void : Str → Option Bool} {Γ : Str → Prop}

theorem given_head {g : Given} (h : GivenOk M Γ g) : g.source.head? ≠ some '{' ∧ g.source.head? ≠ some '$' := by
  cases g with
  | string ps => simp [Given.source]
  | path x =>
    obtain ⟨v, ns, rfl, hv, -, -⟩ := h
    obtain ⟨c, t, rfl, hc⟩ := hv.start
    constructor <;> (simp only [Given.source, List.cons_append, List.head?_cons, ne_eq, Option.some.injEq]; rintro rfl; exact absurd hc (by decide))

/-- The arguments of a component. -/
theorem args_read (hm : ∀ c, isMark M c = true → 0x2768 ≤ c.toNat) {b : List (Str × SlotInfo)} (hb : Binds Γ void b) (args : List (Str × Given))
    (hx : ∀ a ∈ args, XmlName a.1) (hd : (args.map Prod.fst).Nodup) (hv : ∀ a ∈ args, GivenOk M Γ a.2) :
    ∃ ns ns' : List (Str × Expr), ns.map Prod.fst = args.map Prod.fst ∧
      Spec.Attrs M names (args.flatMap (fun a => ' ' :: (a.1 ++ '=' :: a.2.source))) (ns.map (fun x => (some x.1, x.2))) true ∧
      analyseNamed (I := I) b ns = .ok ns' ∧ ∀ ρ (A : Store P W) vs, Situ E D σ tagOf void b Γ ρ A → argValues ρ args = some vs →
        (vs.map Prod.fst = args.map Prod.fst) ∧ ∃ kw, ArgsRep D vs kw ∧ ∀ d : Dict Str (Val P), (∀ a ∈ args, a.1 ∉ Dict.keys d) →
          Evals (evalNamed E σ ns' d) A (d ++ kw) A := by
  induction args with
  | nil =>
    refine ⟨[], [], rfl, .nil, rfl, fun ρ A vs _ hvs => ?_⟩
    simp only [argValues, Option.some.injEq] at hvs
    subst hvs
    refine ⟨rfl, [], .nil, fun d _ => ?_⟩
    rw [evalNamed, List.append_nil]
    exact Evals.pure _ _
  | cons a args ih =>
    obtain ⟨x, g⟩ := a
    rw [List.map_cons, List.nodup_cons] at hd
    obtain ⟨ns, ns', h0, h1, h2, h3⟩ := ih (fun x hx' => hx x (List.mem_cons_of_mem _ hx')) hd.2 (fun x hx' => hv x (List.mem_cons_of_mem _ hx'))
    have hg := hv (x, g) (List.mem_cons_self ..)
    obtain ⟨e, e', g1, g2, g3⟩ := given_reads (M := M) (names := names) (E := E) (D := D) (σ := σ) (tagOf := tagOf) (I := I) hm hg hb
    have hattr : Spec.Attr M names (x ++ '=' :: g.source) (some x) (.root none e) true := by
      have := Spec.Attr.named (w1 := []) (w2 := []) (hx (x, g) (List.mem_cons_self ..)) (by simp [Blanks]) (by simp [Blanks])
        (.factor g1 (given_head hg).1 (given_head hg).2)
      simpa using this
    refine ⟨(x, .root none e) :: ns, (x, e') :: ns', by simp [h0], ?_, ?_, fun ρ A vs hS hvs => ?_⟩
    · rw [List.flatMap_cons, List.map_cons]
      cases args with
      | nil =>
        have hn : ns = [] := by simpa using h0
        subst hn
        have := Spec.Attrs.last (w := [' ']) (by simp [Blanks]) (by simp) hattr
        simpa using this
      | cons a' args' =>
        have := Spec.Attrs.cons (w := [' ']) (by simp [Blanks]) (by simp) hattr h1 (by simp)
        simpa using this
    · rw [analyseNamed, g2, h2]; rfl
    · simp only [argValues, Option.bind_eq_some_iff, Option.map_eq_some_iff] at hvs
      obtain ⟨d, hd', vs', hvs', rfl⟩ := hvs
      obtain ⟨v, k1, k2⟩ := g3 ρ A d hS hd'
      obtain ⟨m1, kw, m2, m3⟩ := h3 ρ A vs' hS hvs'
      refine ⟨by simp [m1], (x, v) :: kw, .cons ⟨rfl, k1⟩ m2, fun dd hdk => ?_⟩
      rw [evalNamed]
      refine Evals.bind k2 ?_
      have hk := hdk (x, g) (List.mem_cons_self ..)
      rw [(Dict.get?_eq_none_iff dd x).2 hk]
      simp only
      rw [Dict.set_fresh _ _ _ hk]
      have := m3 (dd ++ [(x, v)]) ?_
      · simpa using this
      · intro y hy
        simp only [Dict.keys, List.map_append, List.map_cons, List.map_nil, List.mem_append, List.mem_singleton, not_or]
        refine ⟨by simpa [Dict.keys] using hdk y (List.mem_cons_of_mem _ hy), fun he => hd.1 ?_⟩
        have hy' : y.1 ∈ args.map Prod.fst := List.mem_map_of_mem hy
        rwa [he] at hy'

/-- The use of a component. -/
theorem call_read (hm : ∀ c, isMark M c = true → 0x2768 ≤ c.toNat) {b : List (Str × SlotInfo)} (hb : Binds Γ void b) {n : Str} (hn : TagName n)
    {sl : SlotInfo} (hsl : lookupBind b ('%' :: n) = some sl) {params : List (Str × Bool)} (hp : ∀ q ∈ params, XmlName q.1)
    {args : List (Str × Given)} (ha : ArgsOk M Γ params args) :
    ∃ x ns', Spec.Tags M names (callSource n args) [x] true ∧ analyseTags (I := I) b [x] = .ok [.tag n (some sl.id) [] ns'] ∧
      ∀ ρ (A : Store P W) vs, Situ E D σ tagOf void b Γ ρ A → argValues ρ args = some vs →
        vs.map Prod.fst = args.map Prod.fst ∧ ∃ kw, ArgsRep D vs kw ∧ Evals (evalNamed E σ ns' []) A kw A := by
  have hx : ∀ a ∈ args, XmlName a.1 := fun a h => by
    obtain ⟨q, hq, he⟩ := List.mem_map.1 (ha.known a h)
    exact he ▸ hp q hq
  obtain ⟨ns, ns', h0, h1, h2, h3⟩ := args_read (names := names) (E := E) (D := D) (σ := σ) (tagOf := tagOf) (I := I) hm hb args hx ha.distinct ha.values
  refine ⟨.tag n none [] ns, ns', ?_, ?_, fun ρ A vs hS hvs => ?_⟩
  · have := Spec.Tag.tag (us := []) (ns := ns) hn Spec.Shorts.nil h1 (by simp)
    exact .one (by simpa [callSource] using this)
  · simp only [analyseTags, analyseTag, analyseExprs, h2, resolve, hsl]
    rfl
  · obtain ⟨m1, kw, m2, m3⟩ := h3 ρ A vs hS hvs
    exact ⟨m1, kw, m2, by simpa using m3 [] (by simp [Dict.keys])⟩

theorem readTag_hyper {A : Store P W} {sl : Slot} {v : Val P} (h : (A.states σ).values sl = some v) :
    Evals (readTag σ (some sl) : Comp P X W (Val P)) A v A := by
  rintro Mm hM
  have h4 : (Mm.states σ).values sl = some v := by
    have : Mm.states = A.states := by rw [← hM]; rfl
    rw [this]; exact h
  have h5 : (getSlot σ sl : Comp P X W _) Mm = (.ok (some v), Mm) := by
    unfold getSlot; rw [h4]
  simp only [readTag]
  rw [Comp.bind_ok h5, ← hM]; rfl

/-- The use of a component, after its body. -/
theorem Shows.call {H : Hand} {n : Str} {id : DefId} {sig : Sig} {f : List (Str × Data) → List Chunk → Option (List Chunk)}
    (hu : Uses E D σ tagOf strOf ext L id sig f) {sl : Slot} {ns' : List (Str × Expr)} {body : Stmt P} {A : Store P W} {inc : Str}
    {vs : List (Str × Data)} {cb cs : List Chunk} (hvs : (vs.map Prod.fst).Nodup) (hk : ∀ a ∈ vs, a.1 ∈ sig.params.map Prod.fst)
    (hg : ∀ q ∈ sig.params, q.2 = false → q.1 ∈ vs.map Prod.fst) (ho : f vs cb = some cs) (hI : (A.ind σ).take 1 = ['\n']) {Z : Store P W → Prop}
    (h : Shows E σ tagOf strOf ext H body A inc (fun es B => B.ind σ = A.ind σ ∧ L.base B ∧ (B.states σ).values sl = some (.hyper (.defn id)) ∧
      (∃ kw, ArgsRep D vs kw ∧ Evals (evalNamed E σ ns' []) B kw B) ∧ Chunks (outlineFirst es) cb ∧ (sig.body = false → es = []) ∧ Z B)) :
    Shows E σ tagOf strOf ext H (.struct [.tag n (some sl) [] ns'] body) A [] (fun es B => B.ind σ = A.ind σ ∧ Chunks (outlineFirst es) cs ∧
      ∃ B', Z B' ∧ Kept D B' B ∧ ∀ sl, ¬ L.priv sl → (B.states σ).values sl = (B'.states σ).values sl) := by
  unfold Shows
  have e : nodesBy E σ (.struct [.tag n (some sl) [] ns'] body) = (nodesBy E σ body >>= fun rs => evalNamed E σ ns' [] >>= fun kw =>
      readTag σ (some sl) >>= fun v => (applyTagValue E σ v rs [] kw >>= fun ns =>
      (curIndent σ >>= fun ind => setIndent ind ns >>= fun _ => pure ns))) := by
    unfold nodesBy
    rw [transl]
    simp only [List.reverse_singleton, applyTags, translTag, evalList, Comp.bind_assoc, withIndent, Comp.pure_bind]
    rfl
  rw [e]
  refine Makes.trans h ?_
  rintro ns B ⟨es, hd, hi, hb, hsl, ⟨kw, hkw, hev⟩, hc, hne, hz⟩
  refine Transforms.eval (c := fun _ => evalNamed E σ ns' []) (f := fun kw rs => readTag σ (some sl) >>= fun v => (applyTagValue E σ v rs [] kw >>= fun ns =>
      (curIndent σ >>= fun ind => setIndent ind ns >>= fun _ => pure ns))) (fun _ => hev) ?_
  refine Transforms.eval (c := fun _ => readTag σ (some sl)) (f := fun v rs => (applyTagValue E σ v rs [] kw >>= fun ns =>
      (curIndent σ >>= fun ind => setIndent ind ns >>= fun _ => pure ns))) (fun _ => readTag_hyper hsl) ?_
  simp only [applyTagValue]
  have hu' := hu B vs kw cb cs hb (by rw [hi]; exact hI) hkw hvs hk hg ho
  refine Transforms.trans (hu'.pre ?_) ?_
  · rintro _ rfl
    refine ⟨⟨_, es, hd, hc⟩, fun hs => ?_⟩
    have := hne hs
    subst this
    cases hd
    rfl
  · rintro ms B1 ⟨⟨t, ht, hct⟩, hi1, hkp, hvals⟩
    refine Transforms.eval (c := fun _ => curIndent σ) (f := fun ind ns => setIndent ind ns >>= fun _ => pure ns)
      (fun _ => curIndent_evals B1) ?_
    refine (transforms_indent (B1.ind σ) B1 _ (by rintro _ rfl; exact (ht.indent _).1)).mono ?_
    rintro _ B2 ⟨h2, _, rfl, rfl⟩
    subst h2
    have h3 := (ht.indent (B2.ind σ)).2
    rw [hi1, hi] at h3 ⊢
    rw [List.append_nil]
    exact ⟨_, h3, rfl, hct, B, hz, hkp, hvals⟩

end
end Verif
