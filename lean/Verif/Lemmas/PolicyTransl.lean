import Verif.Lemmas.PolicyEval

/-! Translation of statements keeps to a policy. -/

namespace Verif
open Py Spec

section
variable {P X W α β : Type} {L : Policy P W} {E : Env P X W} (F : L.Fair E)
include F

namespace Spec.Policy.Fair

/-! ### Lines and text blocks -/

theorem renderLine (σ : StateId) (n : Nat) (l : Verif.Line) (h : L.Line l) : Conforms L n (fun _ s => L.text s) (renderLine E σ l) := by
  cases l with
  | verbat s => exact .pure (fun _ _ => h)
  | markup ps => exact (F.evalStrs σ n ps h.2).weaken (fun _ s _ _ => h.1 s)
  | normal ps =>
    refine (F.evalStrs σ n ps h).bind (fun m t _ _ => ?_)
    cases he : E.ops.escape with
    | none => exact .pure (fun _ _ => F.ops.escape he _)
    | some f => exact F.py (.escape he)

theorem renderItem (σ : StateId) (n : Nat) (i : TextItem) (h : L.Item i) : Conforms L n (fun _ s => L.text s) (renderItem E σ i) := by
  cases i with
  | line l =>
    exact (Conforms.curIndent σ).bind (fun m s _ hs => (F.renderLine σ m l h).bind (fun _ _ _ ht =>
      .pure (fun _ _ => F.laws.append (F.laws.blank hs) ht)))
  | margin s => exact .pure (fun _ _ => h)
  | indent c => exact (Conforms.doIndent σ h).bind (fun _ _ _ _ => .pure (fun _ _ => F.laws.blank (by simp)))
  | dedent c => exact (Conforms.doDedent σ c).bind (fun _ _ _ _ => .pure (fun _ _ => F.laws.blank (by simp)))

theorem renderItems (σ : StateId) (n : Nat) (is : List TextItem) (h : ∀ i ∈ is, L.Item i) :
    Conforms L n (fun _ s => L.text s) (renderItems E σ is) := by
  induction is generalizing n with
  | nil => exact .pure (fun _ _ => F.laws.blank (by simp))
  | cons i is ih =>
    exact (F.renderItem σ n i (h i (by simp))).bind (fun m _ _ hs => (ih m (fun j hj => h j (by simp [hj]))).bind
      (fun _ _ _ ht => .pure (fun _ _ => F.laws.append hs ht)))

theorem renderText (σ : StateId) (n : Nat) (lead : Nat) (is : List TextItem) (h : ∀ i ∈ is, L.Item i) :
    Conforms L n (fun _ s => L.text s) (renderText E σ lead is) :=
  (Conforms.keepIndent σ ((Conforms.putIndent σ (s := []) (by simp)).bind (fun m _ _ _ => F.renderItems σ m is h))).bind
    (fun _ _ _ hs => .pure (fun _ _ => F.laws.layout lead hs))

/-! ### Assignment -/

theorem unpackEnd {n : Nat} {it : Val P} (h : L.Value n it) : Conforms L n (fun _ _ => True) (unpackEnd E it) := by
  refine (F.py (.next h)).bind (fun _ o _ _ => ?_)
  cases o with
  | none => exact .pure (fun _ _ => trivial)
  | some v => exact .raise _

mutual
theorem assignTarget (σ : StateId) : ∀ (n : Nat) (t : Target) (v : Val P), L.Value n v →
    Conforms L n (fun _ _ => True) (assignTarget E σ t v)
  | n, .var _ _ _ none, v, h => by simp only [Verif.assignTarget]; exact .raise _
  | n, .var _ _ _ (some sl), v, h => by simp only [Verif.assignTarget]; exact .setSlot F.laws σ sl h
  | n, .many [], v, h => by
    simp only [Verif.assignTarget]
    exact (F.py (.iter h)).bind (fun _ it _ hi => by simp only [Verif.unpackTargets]; exact F.unpackEnd hi)
  | n, .many [t], v, h => by
    simp only [Verif.assignTarget]
    exact assignTarget σ n t v h
  | n, .many (t1 :: t2 :: ts), v, h => by
    have ha : Verif.assignTarget E σ (.many (t1 :: t2 :: ts)) v =
        (Verif.runPy E (E.ops.iter v) >>= fun it => Verif.unpackTargets E σ (t1 :: t2 :: ts) it) := by
      rw [Verif.assignTarget]; simp
    rw [ha]
    exact (F.py (.iter h)).bind (fun m it _ hi => unpackTargets σ m (t1 :: t2 :: ts) it hi)
theorem unpackTargets (σ : StateId) : ∀ (n : Nat) (ts : List Target) (it : Val P), L.Value n it →
    Conforms L n (fun _ _ => True) (unpackTargets E σ ts it)
  | n, [], it, h => by simp only [Verif.unpackTargets]; exact F.unpackEnd h
  | n, t :: ts, it, h => by
    simp only [Verif.unpackTargets]
    refine (F.py (.next h)).bind (fun m o hm ho => ?_)
    cases o with
    | none => exact .raise _
    | some v => exact (assignTarget σ m t v (ho v rfl)).bind (fun k _ hk _ =>
        unpackTargets σ k ts it (F.laws.value h (Nat.le_trans hm hk)))
end

theorem evalTarget (σ : StateId) (n : Nat) (t : Target) : Conforms L n L.Value (evalTarget σ t : Comp P X W (Val P)) := by
  unfold Verif.evalTarget
  split
  · exact F.readName σ _
  · exact .raise _

theorem inplace (σ : StateId) (n : Nat) (t : Target) (op : Option Str) {v : Val P} (h : L.Value n v) :
    Conforms L n L.Value (inplace E σ t op v) := by
  cases op with
  | none => exact F.ret h
  | some o => exact (F.evalTarget σ n t).bind (fun _ c hm hc => F.binOp _ hc (F.laws.value h hm))

/-! ### Tags -/

/-- Attributes with proper names and values. -/
def _root_.Verif.Policy.Attrs (L : Policy P W) (n : Nat) (d : List (Str × Val P)) : Prop :=
  Policy.Entries L n d ∧ ∀ a ∈ d, L.key a.1

omit F in
theorem _root_.Verif.Policy.Attrs.set {n : Nat} {d : Dict Str (Val P)} {k : Str} {v : Val P} (h : Policy.Attrs L n d) (hk : L.key k)
    (hv : L.Value n v) : Policy.Attrs L n (Dict.set d k v) := by
  refine ⟨fun a ha => ?_, fun a ha => ?_⟩
  · rcases Dict.mem_set ha with rfl | ha
    · exact hv
    · exact h.1 a ha
  · rcases Dict.mem_set ha with rfl | ha
    · exact hk
    · exact h.2 a ha

theorem attrs {n m : Nat} {d : List (Str × Val P)} (h : Policy.Attrs L n d) (hm : n ≤ m) : Policy.Attrs L m d :=
  ⟨F.laws.entries h.1 hm, h.2⟩

theorem evalNamed (σ : StateId) (n : Nat) (l : List (Str × Expr)) (h : ∀ a ∈ l, L.key a.1 ∧ a.2.tagsIf L.calls)
    (d : Dict Str (Val P)) (hd : Policy.Attrs L n d) : Conforms L n (Policy.Attrs L) (evalNamed E σ l d) := by
  induction l generalizing d n with
  | nil => exact .pure (fun _ hm => F.attrs hd hm)
  | cons a l ih =>
    obtain ⟨k, e⟩ := a
    simp only [Verif.evalNamed]
    have hk := h (k, e) (by simp)
    refine (F.eval σ n e hk.2).bind (fun m v hm hv => ?_)
    have ih := fun i => ih i (fun m hm => h m (by simp [hm]))
    cases hg : Dict.get? d k with
    | none => exact ih _ _ ((F.attrs hd hm).set hk.1 hv)
    | some old =>
      have ho : L.Value n old := hd.1 _ (Dict.mem_of_get? hg)
      exact (F.binOp _ (.str _) hv).bind (fun i t hi ht => (F.binOp _ (F.laws.value ho (Nat.le_trans hm hi)) ht).bind
        (fun j new hj hnew => ih _ _ ((F.attrs hd (Nat.le_trans hm (Nat.le_trans hi hj))).set hk.1 hnew)))

omit F in
theorem _root_.Verif.Refs.one {n : Nat} {r : Ref} (h : (r : Nat) < n) : Refs n [r] := by
  intro q hq
  cases List.mem_singleton.1 hq
  exact h

theorem applyTagValue (σ : StateId) {n : Nat} {v : Val P} (hv : L.Value n v) {body : List Ref} (hb : Refs n body)
    {as : List (Val P)} (ha : Policy.Values L n as) {kw : Dict Str (Val P)} (hk : Policy.Attrs L n kw) :
    Conforms L n Refs (applyTagValue E σ v body as kw) := by
  cases hv with
  | hyper h => exact F.expand n h _ _ _ _ (.dom hb) ha hk.1
  | @py p hp =>
    simp only [Verif.applyTagValue]
    by_cases ht : E.ops.isTag p = true
    · rw [if_pos ht]
      exact (Conforms.newNode F.laws (cls := .node) (tag := some (.ext p)) (attrs := some as) (kw := some kw) (ind := .none) hb trivial ha hk.1 ⟨hk.2, F.ops.tag hp ht⟩).bind
        (fun _ _ _ hr => .pure (fun _ hm => Refs.one (Nat.lt_of_lt_of_le hr hm)))
    · rw [if_neg ht]
      exact .raise _
  | _ => exact .raise _

theorem readTag (σ : StateId) (n : Nat) (slot : Option Slot) : Conforms L n L.Value (readTag σ slot : Comp P X W (Val P)) := by
  cases slot with
  | none => exact .raise _
  | some sl =>
    refine (Conforms.getSlot σ sl).bind (fun _ o _ ho => ?_)
    cases o with
    | none => exact .raise _
    | some v => exact F.ret (ho v rfl)

theorem translTag (σ : StateId) (n : Nat) (t : TagExp) (h : L.Tag t) {body : List Ref} (hb : Refs n body) :
    Conforms L n Refs (translTag E σ t body) := by
  cases t with
  | tag name slot us ns =>
    exact (F.evalList σ n us h.1).bind (fun m1 as h1 ha => (F.evalNamed σ m1 ns h.2 [] (by simp [Policy.Attrs, Policy.Entries])).bind
      (fun m2 kw h2 hk => (F.readTag σ m2 slot).bind (fun m3 v h3 hv => F.applyTagValue σ hv
        (hb.mono (Nat.le_trans h1 (Nat.le_trans h2 h3))) (F.laws.values ha (Nat.le_trans h2 h3)) (F.attrs hk h3))))
  | null =>
    exact (Conforms.newNode F.laws (cls := .node) (tag := some .null) (attrs := .none) (kw := .none) (ind := .none) hb trivial (by simp [Policy.Values]) (by simp [Policy.Entries])
      ⟨by simp, trivial⟩).bind (fun _ _ _ hr => .pure (fun _ hm => Refs.one (Nat.lt_of_lt_of_le hr hm)))

theorem applyTags (σ : StateId) (n : Nat) (ts : List TagExp) (h : ∀ t ∈ ts, L.Tag t) {body : List Ref} (hb : Refs n body) :
    Conforms L n Refs (applyTags E σ ts body) := by
  induction ts generalizing n body with
  | nil => exact .pure (fun _ hm => hb.mono hm)
  | cons t ts ih =>
    exact (F.translTag σ n t (h t (by simp)) hb).bind (fun m b _ hb => ih m (fun u hu => h u (by simp [hu])) hb)

/-! ### Embedding -/

theorem flattenVal {n : Nat} {v : Val P} (h : L.Value n v) : Conforms L n Refs (flattenVal E v) := by
  cases h with
  | none => exact .pure (fun _ _ => by simp [Refs])
  | dom h => exact .pure (fun _ hm => Refs.mono h hm)
  | node h => exact .pure (fun _ hm => Refs.one (Nat.lt_of_lt_of_le h hm))
  | py h => exact F.py (.flatten h)
  | _ => exact .raise _

theorem flattenVals (n : Nat) {vs : List (Val P)} (h : Policy.Values L n vs) : Conforms L n Refs (flattenVals E vs) := by
  induction vs generalizing n with
  | nil => exact .pure (fun _ _ => by simp [Refs])
  | cons v vs ih =>
    exact (F.flattenVal (h v (by simp))).bind (fun m a hm ha => (ih m (fun w hw => F.laws.value (h w (by simp [hw])) hm)).bind
      (fun _ b hk hb => .pure (fun _ hj => (ha.mono (Nat.le_trans hk hj)).append (hb.mono hj))))

theorem asSequence {n : Nat} {v : Val P} (h : L.Value n v) : Conforms L n Refs (asSequence E v) := by
  have hr : Conforms L n Refs (Comp.tryExcept (runPy E (E.ops.toList v)) (Comp.raise .typeErr) >>= fun vs => Verif.flattenVals E vs) :=
    (Conforms.tryExcept (F.py (.toList h)) (.raise _)).bind (fun m vs _ hs => F.flattenVals m hs)
  cases h with
  | dom h => exact .pure (fun _ hm => Refs.mono h hm)
  | node h => exact .pure (fun _ hm => Refs.one (Nat.lt_of_lt_of_le h hm))
  | _ => exact hr

/-! ### Imports -/

theorem setSlots (σ : StateId) (n : Nat) {l : List (Slot × Val P)} (h : ∀ a ∈ l, L.Value n a.2) :
    Conforms L n (fun _ _ => True) (setSlots σ l : Comp P X W Unit) := by
  induction l generalizing n with
  | nil => exact .pure (fun _ _ => trivial)
  | cons a l ih =>
    exact (Conforms.setSlot F.laws σ a.1 (h a (by simp))).bind (fun m _ hm _ =>
      ih m (fun b hb => F.laws.value (h b (by simp [hb])) hm))

theorem translImport (σ : StateId) {n : Nat} {i : ImportItem P} (h : L.Import n i) :
    Conforms L n (fun _ _ => True) (translImport σ i : Comp P X W Unit) := by
  cases i with
  | wild slots =>
    cases slots with
    | none => exact .raise _
    | some l => exact F.setSlots σ n (h l rfl)
  | name s r slot =>
    cases slot with
    | none => exact .raise _
    | some q => exact .setSlot F.laws σ q.1 (h q rfl)
  | cntx s r slot =>
    cases slot with
    | none => exact .raise _
    | some q => exact .setSlot F.laws σ q.1 (h q rfl)

theorem import_mono {n m : Nat} {i : ImportItem P} (h : L.Import n i) (hm : n ≤ m) : L.Import m i := by
  cases i with
  | wild slots => exact fun l hl a ha => F.laws.value (h l hl a ha) hm
  | name s r slot => exact fun a ha => F.laws.value (h a ha) hm
  | cntx s r slot => exact fun a ha => F.laws.value (h a ha) hm

theorem translImports (σ : StateId) (n : Nat) {is : List (ImportItem P)} (h : ∀ i ∈ is, L.Import n i) :
    Conforms L n (fun _ _ => True) (translImports σ is : Comp P X W Unit) := by
  induction is generalizing n with
  | nil => exact .pure (fun _ _ => trivial)
  | cons i is ih =>
    exact (F.translImport σ (h i (by simp))).bind (fun m _ hm _ => ih m (fun q hq => F.import_mono (h q (by simp [hq])) hm))

/-! ### Loops -/

omit F in
theorem _root_.Verif.Conforms.whileLoop {n : Nat} {test : Comp P X W Bool} {body : Comp P X W (List Ref)}
    (ht : Conforms L n (fun _ _ => True) test) (hb : Conforms L n Refs body) (k m : Nat) (hm : n ≤ m) {out : List Ref} (ho : Refs m out)
    (empty : Bool) : Conforms L m (fun i r => Refs i r.1) (whileLoop test body k out empty) := by
  induction k generalizing out empty m with
  | zero => exact .timeout
  | succ k ih =>
    exact (ht.mono hm).bind (fun i b hi _ => .ite ((hb.mono (Nat.le_trans hm hi)).bind (fun j ns hj hns =>
      ih j (Nat.le_trans hm (Nat.le_trans hi hj)) ((ho.mono (Nat.le_trans hi hj)).append hns) _)) (.pure (fun _ hj => ho.mono (Nat.le_trans hi hj))))

omit F in
theorem _root_.Verif.Conforms.forLoop {n : Nat} {next : Comp P X W (Option (Val P))} {step : Val P → Comp P X W (List Ref)}
    (hn : Conforms L n (fun m o => ∀ v, o = some v → L.Value m v) next) (hs : ∀ m v, n ≤ m → L.Value m v → Conforms L m Refs (step v))
    (k m : Nat) (hm : n ≤ m) {out : List Ref} (ho : Refs m out) (empty : Bool) :
    Conforms L m (fun i r => Refs i r.1) (forLoop next step k out empty) := by
  induction k generalizing out empty m with
  | zero => exact .timeout
  | succ k ih =>
    refine (hn.mono hm).bind (fun i o hi h => ?_)
    cases o with
    | none => exact .pure (fun _ hj => ho.mono (Nat.le_trans hi hj))
    | some v =>
      exact (hs i v (Nat.le_trans hm hi) (h v rfl)).bind (fun j ns hj hns =>
        ih j (Nat.le_trans hm (Nat.le_trans hi hj)) ((ho.mono (Nat.le_trans hi hj)).append hns) _)

omit F in
theorem _root_.Verif.Conforms.tryLoop {n : Nat} {cs : List (Comp P X W (List Ref))} (h : ∀ c ∈ cs, Conforms L n Refs c) :
    Conforms L n Refs (tryLoop cs) := by
  induction cs with
  | nil => exact .pure (fun _ _ => by simp [Refs])
  | cons c cs ih => exact .tryExcept (h c (by simp)) (ih (fun d hd => h d (by simp [hd])))

omit F in
theorem _root_.Verif.Conforms.optBranch {n : Nat} (c : Option (Comp P X W (List Ref))) (h : ∀ d, c = some d → Conforms L n Refs d) :
    Conforms L n Refs (optBranch c) := by
  cases c with
  | none => exact .pure (fun _ _ => by simp [Refs])
  | some d => exact h d rfl

omit F in
theorem _root_.Verif.Conforms.requiredBranch {n : Nat} (c : Option (Comp P X W (List Ref))) (h : ∀ d, c = some d → Conforms L n Refs d) :
    Conforms L n Refs (requiredBranch c) := by
  cases c with
  | none => exact .raise _
  | some d => exact h d rfl

omit F in
theorem _root_.Verif.Conforms.loopResult {n : Nat} {r : List Ref × Bool} (hr : Refs n r.1) (els : Option (Comp P X W (List Ref)))
    (h : ∀ c, els = some c → Conforms L n Refs c) : Conforms L n Refs (loopResult r els) := by
  unfold Verif.loopResult
  split
  · exact h _ rfl
  · exact .pure (fun _ hm => hr.mono hm)

/-! ### Blocks -/

theorem translStatic (n : Nat) {s : Str} (h : L.text s) : Conforms L n Refs (translStatic s : Comp P X W (List Ref)) := by
  cases s with
  | nil => exact .pure (fun _ _ => by simp [Refs])
  | cons c s => exact (Conforms.newText F.laws h (ind := .none) trivial).bind (fun _ _ _ hr => .pure (fun _ hm => Refs.one (Nat.lt_of_lt_of_le hr hm)))

omit F in
theorem _root_.Verif.Conforms.finishBlock {n : Nat} (m : Option Modifier) {margin : List Ref} {b : Option (List Ref)} (hm : Refs n margin)
    (hb : Refs n (nodesOf b)) : Conforms L n Refs (finishBlock m margin b : Comp P X W (List Ref)) := by
  unfold Verif.finishBlock
  split
  · rename_i r rs
    have hr : (r : Nat) < n := hb r (by simp [nodesOf])
    have hrs : Refs n (r :: rs) := hb
    have hret : ∀ k, n ≤ k → Conforms L k Refs (Pure.pure (margin ++ r :: rs) : Comp P X W (List Ref)) := fun k hk =>
      .pure (fun j hj => (hm.append hrs).mono (Nat.le_trans hk hj))
    refine Conforms.ite ?_ ?_
    · refine .ite ?_ ?_
      · exact (Conforms.setIndent (by simp) hrs).bind (fun k _ hk _ => hret k hk)
      · exact hret n (Nat.le_refl _)
    · refine (Conforms.setOutline true hr).bind (fun i _ hi _ => .ite ?_ ?_)
      · exact (Conforms.setIndent (by simp) (hrs.mono hi)).bind (fun k _ hk _ => hret k (Nat.le_trans hi hk))
      · exact hret i hi
  · exact .pure (fun _ hk => hm.mono hk)

/-- The nodes of a `DOM` or of `None`. -/
def _root_.Verif.OptRefs (n : Nat) (o : Option (List Ref)) : Prop := Refs n (nodesOf o)

omit F in
theorem _root_.Verif.Conforms.withIndent (σ : StateId) {n : Nat} {ns : List Ref} (h : Refs n ns) :
    Conforms L n OptRefs (withIndent σ ns : Comp P X W _) :=
  (Conforms.curIndent σ).bind (fun _ _ hm hs => (Conforms.setIndent hs (h.mono hm)).bind
    (fun _ _ hk _ => .pure (fun _ hj => h.mono (Nat.le_trans hm (Nat.le_trans hk hj)))))

omit F in
theorem _root_.Verif.Conforms.some {n : Nat} {c : Comp P X W (List Ref)} (h : Conforms L n Refs c) :
    Conforms L n OptRefs (c >>= fun ns => Pure.pure (some ns)) :=
  h.bind (fun _ _ _ hs => .pure (fun _ hm => Refs.mono hs hm))

omit F in
theorem _root_.Verif.Conforms.nodes {n : Nat} {c : Comp P X W (Option (List Ref))} (h : Conforms L n OptRefs c) :
    Conforms L n Refs (c >>= fun o => Pure.pure (nodesOf o)) :=
  h.bind (fun _ _ _ hs => .pure (fun _ hm => Refs.mono hs hm))

omit F in
theorem _root_.Verif.Conforms.nothing {n : Nat} {Q : Nat → α → Prop} {c : Comp P X W α} (h : Conforms L n Q c) :
    Conforms L n OptRefs (c >>= fun _ => Pure.pure none) :=
  h.bind (fun _ _ _ _ => .pure (fun _ _ => by simp [OptRefs, nodesOf, Refs]))

omit F in
theorem _root_.Verif.Conforms.empty {n : Nat} : Conforms L n OptRefs (Pure.pure (some []) : Comp P X W (Option (List Ref))) :=
  .pure (fun _ _ => by simp [OptRefs, nodesOf, Refs])

set_option linter.unusedSectionVars false in
mutual
theorem transl (σ : StateId) (k : Nat) : ∀ (n : Nat) (s : Verif.Stmt P), k ≤ n → L.Stmt k s → Conforms L n OptRefs (transl E σ s)
  | n, .static s, hk, h => by
    simp only [Verif.transl]; simp only [Policy.Stmt] at h
    exact (F.translStatic n h).some
  | n, .indent c, hk, h => by
    simp only [Verif.transl]; simp only [Policy.Stmt] at h
    exact (Conforms.doIndent σ h).nothing
  | n, .dedent c, hk, h => by
    simp only [Verif.transl]
    exact (Conforms.doDedent σ c).nothing
  | n, .line l, hk, h => by
    simp only [Verif.transl]; simp only [Policy.Stmt] at h
    exact (F.renderLine σ n l h).bind (fun _ _ _ hs => (Conforms.newText F.laws hs (ind := .none) trivial).bind
      (fun _ _ _ hr => .pure (fun _ hm => Refs.one (Nat.lt_of_lt_of_le hr hm))))
  | n, .xblock m mo b, hk, h => by
    simp only [Verif.transl]; simp only [Policy.Stmt] at h
    exact (F.translStatic n h.1).bind (fun m1 _ h1 hm => (transl σ k m1 b (Nat.le_trans hk h1) h.2).bind
      (fun _ _ h2 hb => (Conforms.finishBlock mo (Refs.mono hm h2) hb).some))
  | n, .text lead items, hk, h => by
    simp only [Verif.transl]; simp only [Policy.Stmt] at h
    exact (F.renderText σ n lead items h).bind (fun _ _ _ hs => (Conforms.curIndent σ).bind (fun _ ind _ hi =>
      (Conforms.newText F.laws hs (ind := some ind) hi).bind
      (fun _ _ _ hr => .pure (fun _ hm => Refs.one (Nat.lt_of_lt_of_le hr hm)))))
  | n, .comment, hk, h => by simp only [Verif.transl]; exact .empty
  | n, .embed e, hk, h => by
    simp only [Verif.transl]; simp only [Policy.Stmt] at h
    exact (F.eval σ n e h).bind (fun _ _ _ hv => (F.asSequence hv).bind (fun _ _ _ hs => .withIndent σ hs))
  | n, .struct tags b, hk, h => by
    simp only [Verif.transl]; simp only [Policy.Stmt] at h
    exact (transl σ k n b hk h.2).bind (fun m _ _ hb => (F.applyTags σ m _ (fun t ht => h.1 t (List.mem_reverse.mp ht)) hb).bind
      (fun _ _ _ hs => .withIndent σ hs))
  | n, .defn id _ none _ _ _, hk, h => by simp only [Verif.transl]; exact .raise _
  | n, .defn id _ (some sl) _ _ _, hk, h => by
    simp only [Verif.transl]; exact (Conforms.setSlot F.laws σ sl (.hyper _)).nothing
  | n, .imports _ _ items, hk, h => by
    simp only [Verif.transl]; simp only [Policy.Stmt] at h
    exact (F.translImports σ n (fun i hi => F.import_mono (h i hi) hk)).bind (fun _ _ _ _ => .empty)
  | n, .tryBlock bs, hk, h => by
    simp only [Verif.transl]; simp only [Policy.Stmt] at h
    exact (Conforms.tryLoop (translEach σ k n bs hk h)).bind (fun _ _ _ hs => .withIndent σ hs)
  | n, .ifBlock cs els, hk, h => by
    simp only [Verif.transl]; simp only [Policy.Stmt] at h
    exact (translIf σ k n cs _ hk h.1 (fun m hm => translOpt σ k m els (Nat.le_trans hk hm) h.2)).bind (fun _ _ _ hs => .withIndent σ hs)
  | n, .elseClause b, hk, h => by
    simp only [Verif.transl]; simp only [Policy.Stmt] at h
    exact (Conforms.requiredBranch _ (translOpt σ k n b hk h)).some
  | n, .whileBlock t b els, hk, h => by
    simp only [Verif.transl]; simp only [Policy.Stmt] at h
    exact (Conforms.whileLoop (n := n) ((F.eval σ n t h.1).bind (fun _ _ _ hv => F.truthOf hv))
      (.optBranch _ (translOpt σ k n b hk h.2.1)) _ n (Nat.le_refl _) (by simp [Refs]) true).bind (fun m r hm hr =>
        (Conforms.loopResult hr _ (translOpt σ k m els (Nat.le_trans hk hm) h.2.2)).bind (fun _ _ _ hs => .withIndent σ hs))
  | n, .forBlock t e rest, hk, h => by
    simp only [Verif.transl]; simp only [Policy.Stmt] at h
    exact (F.eval σ n e h.1).bind (fun m1 _ h1 hv => (F.py (.iter hv)).bind (fun m2 it h2 hi =>
      (Conforms.forLoop (n := m2) (F.py (.next hi)) (fun m v hm hv => (F.assignTarget σ m t v hv).bind (fun m3 _ h3 _ =>
        .optBranch _ (fun d hd => translEach σ k m3 rest (Nat.le_trans hk (Nat.le_trans h1 (Nat.le_trans h2 (Nat.le_trans hm h3)))) h.2 d
          (TransFrame.head?_mem hd)))) _ m2 (Nat.le_refl _) (by simp [Refs]) true).bind (fun m4 r h4 hr =>
        (Conforms.loopResult hr _ (fun d hd => translEach σ k m4 rest (Nat.le_trans hk (Nat.le_trans h1 (Nat.le_trans h2 h4))) h.2 d
          (TransFrame.lastElse_mem hd))).bind (fun _ _ _ hs => .withIndent σ hs))))
  | n, .exprBlock e, hk, h => by
    simp only [Verif.transl]; simp only [Policy.Stmt] at h
    exact (F.eval σ n e h).nothing
  | n, .assign t op e, hk, h => by
    simp only [Verif.transl]; simp only [Policy.Stmt] at h
    exact (F.eval σ n e h).bind (fun m v _ hv => (F.inplace σ m t op hv).bind (fun m2 v _ hv => (F.assignTarget σ m2 t v hv).nothing))
  | n, .body ss, hk, h => by
    simp only [Verif.transl]; simp only [Policy.Stmt] at h
    exact (Conforms.keepIndent σ (translAll σ k n ss hk h)).some
  | n, .pass, hk, h => by simp only [Verif.transl]; exact .empty
theorem translAll (σ : StateId) (k : Nat) : ∀ (n : Nat) (ss : List (Verif.Stmt P)), k ≤ n → L.Stmts k ss →
    Conforms L n Refs (translAll E σ ss)
  | n, [], hk, _ => by simp only [Verif.translAll]; exact .pure (fun _ _ => by simp [Refs])
  | n, s :: ss, hk, h => by
    simp only [Verif.translAll]; simp only [Policy.Stmts] at h
    exact (transl σ k n s hk h.1).bind (fun m _ hm ha => (translAll σ k m ss (Nat.le_trans hk hm) h.2).bind (fun _ _ h2 hb =>
      .pure (fun _ hj => Refs.append (Refs.mono ha (Nat.le_trans h2 hj)) (hb.mono hj))))
theorem translEach (σ : StateId) (k : Nat) : ∀ (n : Nat) (ss : List (Verif.Stmt P)), k ≤ n → L.Stmts k ss →
    ∀ c ∈ translEach E σ ss, Conforms L n Refs c
  | n, [], hk, _ => by simp only [Verif.translEach]; simp
  | n, s :: ss, hk, h => by
    simp only [Verif.translEach]; simp only [Policy.Stmts] at h
    intro c hc
    simp only [List.mem_cons] at hc
    rcases hc with rfl | hc
    · exact (transl σ k n s hk h.1).nodes
    · exact translEach σ k n ss hk h.2 c hc
theorem translIf (σ : StateId) (k : Nat) : ∀ (n : Nat) (cs : List (Expr × Option (Verif.Stmt P))) (els : Option (Comp P X W (List Ref))),
    k ≤ n → L.Clauses k cs → (∀ m, n ≤ m → ∀ d, els = some d → Conforms L m Refs d) → Conforms L n Refs (translIf E σ cs els)
  | n, [], els, hk, _, he => by simp only [Verif.translIf]; exact .optBranch _ (he n (Nat.le_refl _))
  | n, c :: cs, els, hk, h, he => by
    simp only [Verif.translIf]; simp only [Policy.Clauses] at h
    have h1 : c.1.tagsIf L.calls := by
      obtain ⟨t, b⟩ := c; have := h.1; simp only [Policy.Clause] at this; exact this.1
    exact (F.eval σ n c.1 h1).bind (fun m1 v hm1 hv => (F.truthOf hv).bind (fun m2 _ hm2 _ =>
      .ite (translBranch σ k m2 c (Nat.le_trans hk (Nat.le_trans hm1 hm2)) h.1)
        (translIf σ k m2 cs els (Nat.le_trans hk (Nat.le_trans hm1 hm2)) h.2
          (fun m hm => he m (Nat.le_trans hm1 (Nat.le_trans hm2 hm))))))
theorem translBranch (σ : StateId) (k : Nat) : ∀ (n : Nat) (c : Expr × Option (Verif.Stmt P)), k ≤ n → L.Clause k c →
    Conforms L n Refs (translBranch E σ c)
  | n, (_, b), hk, h => by
    simp only [Verif.translBranch]; simp only [Policy.Clause] at h
    exact .optBranch _ (translOpt σ k n b hk h.2)
theorem translOpt (σ : StateId) (k : Nat) : ∀ (n : Nat) (o : Option (Verif.Stmt P)), k ≤ n → L.OptStmt k o →
    ∀ d, translOpt E σ o = some d → Conforms L n Refs d
  | n, .none, hk, _, d, h => by simp only [Verif.translOpt] at h; cases h
  | n, .some s, hk, hs, d, h => by
    simp only [Verif.translOpt] at h; simp only [Policy.OptStmt] at hs
    cases h
    exact (transl σ k n s hk hs).nodes
end

/-! ### Expansion of hypertags -/

theorem assignAttr (σ : StateId) {n : Nat} (slot : Option Slot) {v : Val P} (h : L.Value n v) :
    Conforms L n (fun _ _ => True) (assignAttr σ slot v : Comp P X W Unit) := by
  cases slot with
  | none => exact .raise _
  | some sl => exact .setSlot F.laws σ sl h

omit F in
theorem _root_.Verif.bindPositional_attrs {n : Nat} {as : List AttrDef} (ha : ∀ a ∈ as, L.key a.name) {vs : List (Val P)}
    (hv : Policy.Values L n vs) {kw kw1 : Dict Str (Val P)} (hk : Policy.Attrs L n kw) (h : bindPositional as vs kw = some kw1) :
    Policy.Attrs L n kw1 := by
  induction as generalizing vs kw with
  | nil => simp only [bindPositional] at h; cases h; exact hk
  | cons a as ih =>
    cases vs with
    | nil => simp only [bindPositional] at h; cases h; exact hk
    | cons v vs =>
      simp only [bindPositional] at h
      split at h
      · cases h
      · exact ih (fun b hb => ha b (by simp [hb])) (fun w hw => hv w (by simp [hw])) (hk.set (ha a (by simp)) (hv v (by simp))) h

theorem bindDefaults (σ : StateId) (n : Nat) (as : List AttrDef) (h : ∀ a ∈ as, L.key a.name ∧ Expr.tagsIfOpt L.calls a.default)
    (kw : Dict Str (Val P)) (hk : Policy.Attrs L n kw) : Conforms L n (Policy.Attrs L) (bindDefaults E σ as kw) := by
  induction as generalizing kw n with
  | nil => exact .pure (fun _ hm => F.attrs hk hm)
  | cons a as ih =>
    simp only [Verif.bindDefaults]
    have h1 := h a (by simp)
    have ih := fun i => ih i (fun b hb => h b (by simp [hb]))
    refine .ite (ih _ _ hk) ?_
    cases hd : a.default with
    | none => exact .raise _
    | some e =>
      rw [hd] at h1
      exact (F.eval σ n e h1.2).bind (fun m v hm hv => ih _ _ ((F.attrs hk hm).set h1.1 hv))

theorem assignAttrs (σ : StateId) (n : Nat) (as : List AttrDef) (l : List (Str × Val P)) (h : Policy.Entries L n l) :
    Conforms L n (fun _ _ => True) (assignAttrs σ as l : Comp P X W Unit) := by
  induction l generalizing n with
  | nil => exact .pure (fun _ _ => trivial)
  | cons q l ih =>
    obtain ⟨k, v⟩ := q
    simp only [Verif.assignAttrs]
    cases hf : as.find? (fun a => decide (a.name = k)) with
    | none => exact (Conforms.raise (Q := fun _ _ => True) _).bind (fun m _ hm _ => ih m (F.laws.entries (fun a ha => h a (by simp [ha])) hm))
    | some a =>
      exact (F.assignAttr σ _ (h (k, v) (by simp))).bind (fun m _ hm _ => ih m (F.laws.entries (fun a ha => h a (by simp [ha])) hm))

theorem assignBody (σ : StateId) (n : Nat) (a : Option AttrDef) {body : Val P} (h : L.Value n body) :
    Conforms L n (fun _ _ => True) (assignBody E σ a body) := by
  cases a with
  | none => exact (F.truthOf h).bind (fun _ _ _ _ => .ite (.raise _) (.pure (fun _ _ => trivial)))
  | some d => exact F.assignAttr σ _ h

omit F in
theorem _root_.Verif.isAttr_key {k : Nat} {d : DefInfo P} (hd : L.Definition k d) {name : Str} (h : d.isAttr name = true) : L.key name := by
  unfold DefInfo.isAttr at h
  rw [Bool.or_eq_true] at h
  rcases h with h | h
  · cases hb : d.bodyAttr with
    | none => rw [hb] at h; cases h
    | some a =>
      rw [hb] at h
      have : a.name = name := by simpa using h
      exact this ▸ hd.bodyAttr a hb
  · obtain ⟨a, ha, hn⟩ := List.any_eq_true.1 h
    have : a.name = name := by simpa using hn
    exact this ▸ (hd.attrs a ha).1

omit F in
theorem _root_.Verif.domAttrs_attrs {k n : Nat} {d : DefInfo P} (hd : L.Definition k d) {as : List (Val P)} (ha : Policy.Values L n as)
    {kw : Dict Str (Val P)} (hk : Policy.Attrs L n kw) : Policy.Attrs L n (domAttrs d as kw) := by
  have hz : ∀ a ∈ (d.attrs.map (·.name)).zip as, L.Value n a.2 ∧ L.key a.1 := by
    intro a h
    refine ⟨ha _ (List.of_mem_zip h).2, ?_⟩
    obtain ⟨b, hb, he⟩ := List.mem_map.1 (List.of_mem_zip h).1
    exact he ▸ (hd.attrs b hb).1
  have : ∀ a ∈ domAttrs d as kw, L.Value n a.2 ∧ L.key a.1 := by
    intro a h
    rcases Dict.mem_update h with h | h
    · exact hz a ((Dict.mem_update h).resolve_left (by simp))
    · exact ⟨hk.1 a h, hk.2 a h⟩
  exact ⟨fun a h => (this a h).1, fun a h => (this a h).2⟩

theorem appendAttrs (σ : StateId) {k : Nat} (n : Nat) {d : DefInfo P} (hd : L.Definition k d) {body : Val P} (hb : L.Value n body)
    {as : List (Val P)} (ha : Policy.Values L n as) {kw : Dict Str (Val P)} (hk : Policy.Entries L n kw) :
    Conforms L n (Policy.Attrs L) (appendAttrs E σ d body as kw) := by
  simp only [Verif.appendAttrs]
  refine .ite (.raise _) (.ite (.raise _) ?_)
  by_cases hkey : (kw.any (fun p => !d.isAttr p.1)) = true
  · rw [if_pos hkey]; exact .raise _
  · rw [if_neg hkey]
    have hkw : Policy.Attrs L n kw := by
      refine ⟨hk, fun a h => isAttr_key hd ?_⟩
      by_contra hn
      exact hkey (List.any_eq_true.2 ⟨a, h, by simpa using hn⟩)
    cases hp : bindPositional d.attrs as kw with
    | none => exact .raise _
    | some kw1 =>
      have h1 := bindPositional_attrs (fun a h => (hd.attrs a h).1) ha hkw hp
      exact (F.bindDefaults σ n _ hd.attrs _ h1).bind (fun m1 kw2 hm1 h2 => (F.assignAttrs σ m1 _ _ h2.1).bind (fun m2 _ hm2 _ =>
        (F.assignBody σ m2 _ (F.laws.value hb (Nat.le_trans hm1 hm2))).bind (fun m3 _ hm3 _ =>
          .pure (fun m4 hm4 => F.attrs (domAttrs_attrs hd ha hkw) (Nat.le_trans hm1 (Nat.le_trans hm2 (Nat.le_trans hm3 hm4)))))))

omit F in
theorem _root_.Verif.Conforms.firstInline {n : Nat} {ns : List Ref} (h : Refs n ns) :
    Conforms L n (fun _ _ => True) (firstInline ns : Comp P X W Unit) := by
  cases ns with
  | nil => exact .pure (fun _ _ => trivial)
  | cons r rs => exact .setOutline _ (h r (by simp))

theorem expandDef (σ : StateId) {k : Nat} (n : Nat) (hkn : k ≤ n) (id : DefId) {d : DefInfo P} (hd : L.Definition k d) {body : Val P}
    (hb : L.Value n body) {as : List (Val P)} (ha : Policy.Values L n as) {kw : Dict Str (Val P)} (hk : Policy.Entries L n kw) :
    Conforms L n Refs (expandDef E id d body as kw σ) :=
  (F.appendAttrs σ n hd hb ha hk).bind (fun m1 da h1 hda => (F.transl σ k m1 d.body (Nat.le_trans hkn h1) hd.body).bind
    (fun m2 out h2 ho => (Conforms.curIndent σ).bind (fun m3 ind h3 hi => (Conforms.setIndent hi (Refs.mono ho h3)).bind
      (fun m4 _ h4 _ => (Conforms.firstInline (Refs.mono ho (Nat.le_trans h3 h4))).bind (fun m5 _ h5 _ =>
        have h25 : m2 ≤ m5 := Nat.le_trans h3 (Nat.le_trans h4 h5)
        have hda := F.attrs hda (Nat.le_trans h2 h25)
        (Conforms.newNode F.laws (cls := .node) (tag := .some (.native id)) (attrs := .none) (kw := .some da) (ind := .some ind) (Refs.mono ho h25) hi (by simp [Policy.Values]) hda.1 ⟨hda.2, trivial⟩).bind
          (fun _ _ _ hr => .pure (fun _ hm => Refs.one (Nat.lt_of_lt_of_le hr hm))))))))

theorem expandHyper (Γ : DefId → DefInfo P) {k : Nat} (hΓ : ∀ id, L.Definition k (Γ id)) (h : HVal) (n : Nat) (hkn : k ≤ n) {body : Val P}
    (hb : L.Value n body) {as : List (Val P)} (ha : Policy.Values L n as) {kw : Dict Str (Val P)} (hk : Policy.Entries L n kw)
    (σ : StateId) : Conforms L n Refs (expandHyper E Γ h body as kw σ) := by
  induction h generalizing σ with
  | defn id => simp only [Verif.expandHyper]; exact F.expandDef σ n hkn id (hΓ id) hb ha hk
  | imported h st ih => simp only [Verif.expandHyper]; exact ih st

theorem embeddedBody (n : Nat) {v : Val P} (hc : L.calls) (h : L.Value n v) : Conforms L n L.Value (embeddedBody E v) := by
  have hr : ∀ v : Val P, L.Value n v → Conforms L n L.Value (Verif.strOf E v >>= fun s => (Verif.newText s none : Comp P X W Ref) >>=
      fun r => Pure.pure (Val.node r)) := fun v h =>
    (F.strOf h).bind (fun _ s _ _ => (Conforms.newText F.laws (F.laws.calls hc s) (ind := .none) trivial).bind (fun _ _ _ hr => F.ret (.node hr)))
  cases v with
  | none => exact F.ret (.dom (by simp))
  | _ => exact hr _ h

theorem callEmbedded (n : Nat) (c : Callback P) (hc : L.calls) (hb : L.Value n c.body) (ha : Policy.Values L n c.attrs)
    (hk : Policy.Entries L n c.kwattrs) : Conforms L n L.Value (callEmbedded E c) :=
  (F.embeddedBody n hc hb).bind (fun m1 b h1 hb => (F.expand m1 _ _ _ _ _ hb (F.laws.values ha h1) (F.laws.entries hk h1)).bind
    (fun _ dom _ hd => (Conforms.setIndent (by simp) hd).bind (fun _ _ h3 _ => (F.py (.render (hd.mono h3))).bind
      (fun _ _ _ _ => F.ret (.str _)))))

end Spec.Policy.Fair
end

section
variable {P X W : Type} {L : Policy P W}

/-- Translation in an environment with given definitions keeps to the policy. -/
theorem fair_envAt (hL : L.Laws) (ops : PyOps P X W) (hops : L.Honest ops) (Γ : DefId → DefInfo P) (hΓ : ∀ id, L.Definition 0 (Γ id)) (f : Nat) :
    L.Fair (envAt ops Γ f) := by
  induction f with
  | zero => exact ⟨hL, hops, fun _ _ _ _ _ _ _ _ _ => .timeout, fun _ _ _ _ _ _ => .timeout⟩
  | succ f ih =>
    exact ⟨hL, hops, fun n h b as kw σ hb ha hk => ih.expandHyper Γ hΓ h n (Nat.zero_le _) hb ha hk σ,
      fun n c hc hb ha hk => ih.callEmbedded n c hc hb ha hk⟩

end
end Verif
