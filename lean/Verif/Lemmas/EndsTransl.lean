import Verif.Lemmas.EndsEval
import Verif.Lemmas.PolicyTransl
import Verif.Lemmas.Control

/-! Translation of statements without `while` loops ends. -/

namespace Verif
open Py Spec

/-! ### Statements after the analysis -/

section
variable {P : Type}

/-- Imported values. -/
def ImportItem.brings (V : Val P → Prop) : ImportItem P → Prop
  | .wild slots => ∀ l, slots = some l → ∀ a ∈ l, V a.2
  | .name _ _ slot => ∀ a, slot = some a → V a.2
  | .cntx _ _ slot => ∀ a, slot = some a → V a.2

/-- The tag is in a slot before `b`; its attributes do not mention hypertags. -/
def TagExp.orderly (G : DefId → Slot → Prop) (b : Slot) : TagExp → Prop
  | .tag _ slot us ns => Expr.readsAll (NoTag G) us ∧ (∀ n ∈ ns, n.2.reads (NoTag G)) ∧ ∀ k, slot = some k → k < b
  | .null => True

mutual
/-- There are no `while` loops; expressions do not mention hypertags; the tags are in slots before `b`; the imported
values satisfy `V`. -/
def Stmt.orderly (V : Val P → Prop) (G : DefId → Slot → Prop) (b : Slot) : Stmt P → Prop
  | .static _ => True
  | .indent _ => True
  | .dedent _ => True
  | .line l => l.reads (NoTag G)
  | .xblock _ _ s => s.orderly V G b
  | .text _ items => ∀ i ∈ items, i.reads (NoTag G)
  | .comment => True
  | .embed e => e.reads (NoTag G)
  | .struct tags s => (∀ t ∈ tags, t.orderly G b) ∧ s.orderly V G b
  | .defn id _ slot _ _ _ => ∀ k, slot = some k → G id k
  | .imports _ _ items => ∀ i ∈ items, i.brings V
  | .tryBlock bs => Stmt.orderlyAll V G b bs
  | .ifBlock cs els => Stmt.orderlyClauses V G b cs ∧ Stmt.orderlyOpt V G b els
  | .elseClause o => Stmt.orderlyOpt V G b o
  | .whileBlock _ _ _ => False
  | .forBlock _ e rest => e.reads (NoTag G) ∧ Stmt.orderlyAll V G b rest
  | .exprBlock e => e.reads (NoTag G)
  | .assign t _ e => e.reads (NoTag G) ∧ t.reads (NoTag G)
  | .body ss => Stmt.orderlyAll V G b ss
  | .pass => True
def Stmt.orderlyAll (V : Val P → Prop) (G : DefId → Slot → Prop) (b : Slot) : List (Stmt P) → Prop
  | [] => True
  | s :: ss => s.orderly V G b ∧ Stmt.orderlyAll V G b ss
def Stmt.orderlyOpt (V : Val P → Prop) (G : DefId → Slot → Prop) (b : Slot) : Option (Stmt P) → Prop
  | none => True
  | some s => s.orderly V G b
def Stmt.orderlyClause (V : Val P → Prop) (G : DefId → Slot → Prop) (b : Slot) : Expr × Option (Stmt P) → Prop
  | (t, o) => t.reads (NoTag G) ∧ Stmt.orderlyOpt V G b o
def Stmt.orderlyClauses (V : Val P → Prop) (G : DefId → Slot → Prop) (b : Slot) : List (Expr × Option (Stmt P)) → Prop
  | [] => True
  | c :: cs => Stmt.orderlyClause V G b c ∧ Stmt.orderlyClauses V G b cs
end

/-- Definitions of hypertags. -/
structure DefInfo.Orderly (V : Val P → Prop) (G : DefId → Slot → Prop) (b : Slot) (d : DefInfo P) : Prop where
  attrs : ∀ a ∈ d.attrs, Expr.readsOpt (NoTag G) a.default
  body : d.body.orderly V G b

theorem Stmt.orderlyAll_mem {V : Val P → Prop} {G : DefId → Slot → Prop} {b : Slot} {ss : List (Stmt P)} (h : Stmt.orderlyAll V G b ss)
    {s : Stmt P} (hs : s ∈ ss) : s.orderly V G b := by
  induction ss with
  | nil => cases hs
  | cons a ss ih =>
    simp only [Stmt.orderlyAll] at h
    rcases List.mem_cons.1 hs with rfl | hs
    · exact h.1
    · exact ih h.2 hs

end

section
variable {P X W α β : Type} {O : Outside P W} {G : DefId → Slot → Prop} {σ : StateId} {ops : PyOps P X W}
  {ex : Nat → HVal → Val P → List (Val P) → List (Str × Val P) → StateId → Comp P X W (List Ref)} {ca : Nat → Callback P → Comp P X W (Val P)}
  (C : O.Calm ops)
include C

local notation "𝓔" => bounded ops ex ca

namespace Halts

/-! ### Lines and text blocks -/

theorem renderLine (n : Nat) (l : Line) (h : l.reads (NoTag G)) : Halts O G σ n (fun _ _ => True) (fun i => Verif.renderLine (𝓔 i) σ l) := by
  cases l with
  | verbat s => exact .pure (fun _ _ => trivial)
  | markup ps => exact Halts.evalStrs C n ps h
  | normal ps =>
    simp only [Verif.renderLine]
    refine (Halts.evalStrs C n ps h).bind (fun m t _ _ => ?_)
    cases he : ops.escape with
    | none => exact .pure (fun _ _ => trivial)
    | some f => exact Halts.py C (.escape he)

theorem renderItem (n : Nat) (t : TextItem) (h : t.reads (NoTag G)) : Halts O G σ n (fun _ _ => True) (fun i => Verif.renderItem (𝓔 i) σ t) := by
  cases t with
  | line l =>
    exact (Halts.curIndent).bind (fun m s _ _ => (Halts.renderLine C m l h).bind (fun _ _ _ _ => .pure (fun _ _ => trivial)))
  | margin s => exact .pure (fun _ _ => trivial)
  | indent c => exact (Halts.doIndent c).bind (fun _ _ _ _ => .pure (fun _ _ => trivial))
  | dedent c => exact (Halts.doDedent c).bind (fun _ _ _ _ => .pure (fun _ _ => trivial))

theorem renderItems (n : Nat) (is : List TextItem) (h : ∀ i ∈ is, i.reads (NoTag G)) :
    Halts O G σ n (fun _ _ => True) (fun i => Verif.renderItems (𝓔 i) σ is) := by
  induction is generalizing n with
  | nil => exact .pure (fun _ _ => trivial)
  | cons i is ih =>
    exact (Halts.renderItem C n i (h i (by simp))).bind (fun m _ _ _ => (ih m (fun j hj => h j (by simp [hj]))).bind
      (fun _ _ _ _ => .pure (fun _ _ => trivial)))

theorem renderText (n : Nat) (lead : Nat) (is : List TextItem) (h : ∀ i ∈ is, i.reads (NoTag G)) :
    Halts O G σ n (fun _ _ => True) (fun i => Verif.renderText (𝓔 i) σ lead is) :=
  (Halts.keepIndent ((Halts.putIndent []).bind (fun m _ _ _ => Halts.renderItems C m is h))).bind
    (fun _ _ _ _ => .pure (fun _ _ => trivial))

/-! ### Assignment -/

theorem unpackEnd {n : Nat} {it : Val P} (h : O.Plain n it) : Halts O G σ n (fun _ _ => True) (fun i => Verif.unpackEnd (𝓔 i) it) := by
  refine (Halts.py C (.next h)).bind (fun _ o _ _ => ?_)
  cases o with
  | none => exact .pure (fun _ _ => trivial)
  | some v => exact .raise _

mutual
theorem assignTarget : ∀ (n : Nat) (t : Target) (v : Val P), O.Plain n v →
    Halts O G σ n (fun _ _ => True) (fun i => Verif.assignTarget (𝓔 i) σ t v)
  | n, .var _ _ _ none, v, h => by simp only [Verif.assignTarget]; exact .raise _
  | n, .var _ _ _ (some sl), v, h => by simp only [Verif.assignTarget]; exact .setSlot C sl (.inl h)
  | n, .many [], v, h => by
    simp only [Verif.assignTarget]
    exact (Halts.py C (.iter h)).bind (fun _ it _ hi => by simp only [Verif.unpackTargets]; exact Halts.unpackEnd C hi)
  | n, .many [t], v, h => by
    simp only [Verif.assignTarget]
    exact assignTarget n t v h
  | n, .many (t1 :: t2 :: ts), v, h => by
    have ha : ∀ i, Verif.assignTarget (𝓔 i) σ (.many (t1 :: t2 :: ts)) v =
        (Verif.runPy (𝓔 i) (ops.iter v) >>= fun it => Verif.unpackTargets (𝓔 i) σ (t1 :: t2 :: ts) it) := by
      intro i
      rw [Verif.assignTarget]; simp
    simp only [ha]
    exact (Halts.py C (.iter h)).bind (fun m it _ hi => unpackTargets m (t1 :: t2 :: ts) it hi)
theorem unpackTargets : ∀ (n : Nat) (ts : List Target) (it : Val P), O.Plain n it →
    Halts O G σ n (fun _ _ => True) (fun i => Verif.unpackTargets (𝓔 i) σ ts it)
  | n, [], it, h => by simp only [Verif.unpackTargets]; exact Halts.unpackEnd C h
  | n, t :: ts, it, h => by
    simp only [Verif.unpackTargets]
    refine (Halts.py C (.next h)).bind (fun m o hm ho => ?_)
    cases o with
    | none => exact .raise _
    | some v => exact (assignTarget m t v (ho v rfl)).bind (fun k _ hk _ =>
        unpackTargets k ts it (C.plain h (Nat.le_trans hm hk)))
end

theorem evalTarget (n : Nat) (t : Target) (h : t.reads (NoTag G)) : Halts O G σ n O.Plain (fun _ => (Verif.evalTarget σ t : Comp P X W (Val P))) := by
  unfold Verif.evalTarget
  split
  · simp only [Target.reads, Target.readsAll] at h
    exact Halts.readName C (by simpa using h)
  · exact .raise _

theorem inplace (n : Nat) (t : Target) (ht : t.reads (NoTag G)) (op : Option Str) {v : Val P} (h : O.Plain n v) :
    Halts O G σ n O.Plain (fun i => Verif.inplace (𝓔 i) σ t op v) := by
  cases op with
  | none => exact Halts.ret C h
  | some o => exact (Halts.evalTarget C n t ht).bind (fun _ c hm hc => Halts.binOp C _ hc (C.plain h hm))

/-! ### Tags -/

omit C in
theorem entries_set {n : Nat} {d : Dict Str (Val P)} {k : Str} {v : Val P} (h : Outside.Entries O n d) (hv : O.Plain n v) :
    Outside.Entries O n (Dict.set d k v) := by
  intro a ha
  rcases Dict.mem_set ha with rfl | ha
  · exact hv
  · exact h a ha

theorem evalNamed (n : Nat) (l : List (Str × Expr)) (h : ∀ a ∈ l, a.2.reads (NoTag G))
    (d : Dict Str (Val P)) (hd : Outside.Entries O n d) : Halts O G σ n (Outside.Entries O) (fun i => Verif.evalNamed (𝓔 i) σ l d) := by
  induction l generalizing d n with
  | nil => exact .pure (fun _ hm => C.entries hd hm)
  | cons a l ih =>
    obtain ⟨k, e⟩ := a
    simp only [Verif.evalNamed]
    have hk := h (k, e) (by simp)
    refine (Halts.eval C n e hk).bind (fun m v hm hv => ?_)
    have ih := fun i => ih i (fun m hm => h m (by simp [hm]))
    cases hg : Dict.get? d k with
    | none => exact ih _ _ (entries_set (C.entries hd hm) hv)
    | some old =>
      have ho : O.Plain n old := hd _ (Dict.mem_of_get? hg)
      exact (Halts.binOp C _ (.str _) hv).bind (fun i t hi ht => (Halts.binOp C _ (C.plain ho (Nat.le_trans hm hi)) ht).bind
        (fun j new hj hnew => ih _ _ (entries_set (C.entries hd (Nat.le_trans hm (Nat.le_trans hi hj))) hnew)))

/-- Hypertags in slots before `b` can be expanded. -/
def Expands (O : Outside P W) (G : DefId → Slot → Prop) (σ : StateId)
    (ex : Nat → HVal → Val P → List (Val P) → List (Str × Val P) → StateId → Comp P X W (List Ref)) (n0 : Nat) (b : Slot) : Prop :=
  ∀ id k, k < b → G id k → ∀ n body as kw, n0 ≤ n → O.Plain n body → Outside.Plains O n as → Outside.Entries O n kw →
    Halts O G σ n Refs (fun i => ex i (.defn id) body as kw σ)

variable {n0 : Nat} {b : Slot} (hx : Expands O G σ ex n0 b)

include hx in
theorem applyTagValue {n : Nat} (hn : n0 ≤ n) {v : Val P} {k : Slot} (hk : k < b) (hv : O.Plain n v ∨ ∃ id, v = .hyper (.defn id) ∧ G id k)
    {body : List Ref} (hb : Refs n body) {as : List (Val P)} (ha : Outside.Plains O n as) {kw : Dict Str (Val P)} (he : Outside.Entries O n kw) :
    Halts O G σ n Refs (fun i => Verif.applyTagValue (𝓔 i) σ v body as kw) := by
  rcases hv with hv | ⟨id, rfl, hg⟩
  · cases hv with
    | @py p hp =>
      simp only [Verif.applyTagValue]
      exact Halts.ite (p := ops.isTag p = true) ((Halts.newNode C hb).bind (fun _ _ _ hr => .pure (fun _ hm => Refs.one (Nat.lt_of_lt_of_le hr hm)))) (.raise _)
    | _ => exact .raise _
  · exact hx id k hk hg n _ _ _ hn (.dom hb) ha he

omit C in
theorem readTag (n : Nat) (slot : Option Slot) : Halts O G σ n (fun m v => ∃ k, slot = some k ∧ (O.Plain m v ∨ ∃ id, v = .hyper (.defn id) ∧ G id k))
    (fun _ => (Verif.readTag σ slot : Comp P X W (Val P))) := by
  cases slot with
  | none => exact .raise _
  | some sl =>
    have h : Halts O G σ n (fun m o => ∀ v, o = some v → O.Plain m v ∨ ∃ id, v = .hyper (.defn id) ∧ G id sl)
        (fun _ => (Verif.getSlot σ sl : Comp P X W _)) := getSlot sl
    intro M hM hm
    cases hv : (M.states σ).values sl with
    | none =>
      refine ⟨0, .raise .key, M, fun i _ => ?_, nofun, hM, Nat.le_refl _, .refl _, fun _ hb => nomatch hb⟩
      show (Verif.getSlot σ sl >>= _) M = _
      rw [Comp.bind_run]
      simp only [Verif.getSlot, hv, Comp.next]
      rfl
    | some v =>
      refine ⟨0, .ok v, M, fun i _ => ?_, nofun, hM, Nat.le_refl _, .refl _, fun a ha => ?_⟩
      · show (Verif.getSlot σ sl >>= _) M = _
        rw [Comp.bind_run]
        simp only [Verif.getSlot, hv, Comp.next]
        rfl
      · cases ha
        exact ⟨sl, rfl, hM.values sl v hv⟩

include hx in
theorem translTag (n : Nat) (hn : n0 ≤ n) (t : TagExp) (h : t.orderly G b) {body : List Ref} (hb : Refs n body) :
    Halts O G σ n Refs (fun i => Verif.translTag (𝓔 i) σ t body) := by
  cases t with
  | tag name slot us ns =>
    exact (Halts.evalList C n us h.1).bind (fun m1 as h1 ha => (Halts.evalNamed C m1 ns h.2.1 [] (by simp [Outside.Entries])).bind
      (fun m2 kw h2 hk => (Halts.readTag m2 slot).bind (fun m3 v h3 hv => by
        obtain ⟨k, hs, hv⟩ := hv
        exact Halts.applyTagValue C hx (Nat.le_trans hn (Nat.le_trans h1 (Nat.le_trans h2 h3))) (h.2.2 k hs) hv
          (hb.mono (Nat.le_trans h1 (Nat.le_trans h2 h3))) (C.plains ha (Nat.le_trans h2 h3)) (C.entries hk h3))))
  | null => exact (Halts.newNode C hb).bind (fun _ _ _ hr => .pure (fun _ hm => Refs.one (Nat.lt_of_lt_of_le hr hm)))

include hx in
theorem applyTags (n : Nat) (hn : n0 ≤ n) (ts : List TagExp) (h : ∀ t ∈ ts, t.orderly G b) {body : List Ref} (hb : Refs n body) :
    Halts O G σ n Refs (fun i => Verif.applyTags (𝓔 i) σ ts body) := by
  induction ts generalizing n body with
  | nil => exact .pure (fun _ hm => hb.mono hm)
  | cons t ts ih =>
    exact (Halts.translTag C hx n hn t (h t (by simp)) hb).bind (fun m b hm hb => ih m (Nat.le_trans hn hm) (fun u hu => h u (by simp [hu])) hb)

/-! ### Embedding -/

theorem flattenVal {n : Nat} {v : Val P} (h : O.Plain n v) : Halts O G σ n Refs (fun i => Verif.flattenVal (𝓔 i) v) := by
  cases h with
  | none => exact .pure (fun _ _ => by simp [Refs])
  | dom h => exact .pure (fun _ hm => Refs.mono h hm)
  | node h => exact .pure (fun _ hm => Refs.one (Nat.lt_of_lt_of_le h hm))
  | py h => exact Halts.py C (.flatten h)
  | _ => exact .raise _

theorem flattenVals (n : Nat) {vs : List (Val P)} (h : Outside.Plains O n vs) : Halts O G σ n Refs (fun i => Verif.flattenVals (𝓔 i) vs) := by
  induction vs generalizing n with
  | nil => exact .pure (fun _ _ => by simp [Refs])
  | cons v vs ih =>
    exact (Halts.flattenVal C (h v (by simp))).bind (fun m a hm ha => (ih m (fun w hw => C.plain (h w (by simp [hw])) hm)).bind
      (fun _ b hk hb => .pure (fun _ hj => (ha.mono (Nat.le_trans hk hj)).append (hb.mono hj))))

theorem asSequence {n : Nat} {v : Val P} (h : O.Plain n v) : Halts O G σ n Refs (fun i => Verif.asSequence (𝓔 i) v) := by
  have hr : Halts O G σ n Refs (fun i => Comp.tryExcept (runPy (𝓔 i) (ops.toList v)) (Comp.raise .typeErr) >>= fun vs => Verif.flattenVals (𝓔 i) vs) :=
    (Halts.tryExcept (Halts.py C (.toList h)) (.raise _)).bind (fun m vs _ hs => Halts.flattenVals C m hs)
  cases h with
  | dom h => exact .pure (fun _ hm => Refs.mono h hm)
  | node h => exact .pure (fun _ hm => Refs.one (Nat.lt_of_lt_of_le h hm))
  | _ => exact hr

/-! ### Imports -/

theorem setSlots (n : Nat) {l : List (Slot × Val P)} (h : ∀ a ∈ l, O.Plain n a.2) :
    Halts O G σ n (fun _ _ => True) (fun _ => (Verif.setSlots σ l : Comp P X W Unit)) := by
  induction l generalizing n with
  | nil => exact .pure (fun _ _ => trivial)
  | cons a l ih =>
    exact (Halts.setSlot C a.1 (.inl (h a (by simp)))).bind (fun m _ hm _ =>
      ih m (fun b hb => C.plain (h b (by simp [hb])) hm))

theorem translImport {n : Nat} {i : ImportItem P} (h : i.brings (O.Plain n)) :
    Halts O G σ n (fun _ _ => True) (fun _ => (Verif.translImport σ i : Comp P X W Unit)) := by
  cases i with
  | wild slots =>
    cases slots with
    | none => exact .raise _
    | some l => exact Halts.setSlots C n (h l rfl)
  | name s r slot =>
    cases slot with
    | none => exact .raise _
    | some q => exact .setSlot C q.1 (.inl (h q rfl))
  | cntx s r slot =>
    cases slot with
    | none => exact .raise _
    | some q => exact .setSlot C q.1 (.inl (h q rfl))

theorem import_mono {n m : Nat} {i : ImportItem P} (h : i.brings (O.Plain n)) (hm : n ≤ m) : i.brings (O.Plain m) := by
  cases i with
  | wild slots => exact fun l hl a ha => C.plain (h l hl a ha) hm
  | name s r slot => exact fun a ha => C.plain (h a ha) hm
  | cntx s r slot => exact fun a ha => C.plain (h a ha) hm

theorem translImports (n : Nat) {is : List (ImportItem P)} (h : ∀ i ∈ is, i.brings (O.Plain n)) :
    Halts O G σ n (fun _ _ => True) (fun _ => (Verif.translImports σ is : Comp P X W Unit)) := by
  induction is generalizing n with
  | nil => exact .pure (fun _ _ => trivial)
  | cons i is ih =>
    exact (Halts.translImport C (h i (by simp))).bind (fun m _ hm _ => ih m (fun q hq => Halts.import_mono C (h q (by simp [hq])) hm))

/-! ### Blocks -/

theorem translStatic (n : Nat) (s : Str) : Halts O G σ n Refs (fun _ => (Verif.translStatic s : Comp P X W (List Ref))) := by
  cases s with
  | nil => exact .pure (fun _ _ => by simp [Refs])
  | cons c s => exact (Halts.newText C _ _).bind (fun _ _ _ hr => .pure (fun _ hm => Refs.one (Nat.lt_of_lt_of_le hr hm)))

omit C in
theorem finishBlock {n : Nat} (m : Option Modifier) {margin : List Ref} {b : Option (List Ref)} (hm : Refs n margin)
    (hb : Refs n (nodesOf b)) : Halts O G σ n Refs (fun _ => (Verif.finishBlock m margin b : Comp P X W (List Ref))) := by
  unfold Verif.finishBlock
  split
  · rename_i r rs
    have hr : (r : Nat) < n := hb r (by simp [nodesOf])
    have hrs : Refs n (r :: rs) := hb
    have hret : ∀ k, n ≤ k → Halts O G σ k Refs (fun _ => (Pure.pure (margin ++ r :: rs) : Comp P X W (List Ref))) := fun k hk =>
      .pure (fun j hj => (hm.append hrs).mono (Nat.le_trans hk hj))
    refine Halts.ite ?_ ?_
    · refine .ite ?_ ?_
      · exact (Halts.setIndent _ hrs).bind (fun k _ hk _ => hret k hk)
      · exact hret n (Nat.le_refl _)
    · refine (Halts.setOutline true hr).bind (fun i _ hi _ => .ite ?_ ?_)
      · exact (Halts.setIndent _ (hrs.mono hi)).bind (fun k _ hk _ => hret k (Nat.le_trans hi hk))
      · exact hret i hi
  · exact .pure (fun _ hk => hm.mono hk)

omit C in
theorem withIndent {n : Nat} {ns : List Ref} (h : Refs n ns) :
    Halts O G σ n OptRefs (fun _ => (Verif.withIndent σ ns : Comp P X W _)) :=
  (Halts.curIndent).bind (fun _ _ hm _ => (Halts.setIndent _ (h.mono hm)).bind
    (fun _ _ hk _ => .pure (fun _ hj => h.mono (Nat.le_trans hm (Nat.le_trans hk hj)))))

omit C in
theorem isSome {n : Nat} {c : Nat → Comp P X W (List Ref)} (h : Halts O G σ n Refs c) :
    Halts O G σ n OptRefs (fun i => c i >>= fun ns => Pure.pure (some ns)) :=
  h.bind (fun _ _ _ hs => .pure (fun _ hm => Refs.mono hs hm))

omit C in
theorem nodes {n : Nat} {c : Nat → Comp P X W (Option (List Ref))} (h : Halts O G σ n OptRefs c) :
    Halts O G σ n Refs (fun i => c i >>= fun o => Pure.pure (nodesOf o)) :=
  h.bind (fun _ _ _ hs => .pure (fun _ hm => Refs.mono hs hm))

omit C in
theorem nothing {n : Nat} {Q : Nat → α → Prop} {c : Nat → Comp P X W α} (h : Halts O G σ n Q c) :
    Halts O G σ n OptRefs (fun i => c i >>= fun _ => Pure.pure none) :=
  h.bind (fun _ _ _ _ => .pure (fun _ _ => by simp [OptRefs, nodesOf, Refs]))

omit C in
theorem empty {n : Nat} : Halts O G σ n OptRefs (fun _ => (Pure.pure (some []) : Comp P X W (Option (List Ref)))) :=
  .pure (fun _ _ => by simp [OptRefs, nodesOf, Refs])

omit C in
theorem noRefs {n : Nat} : Halts O G σ n Refs (fun _ => (Pure.pure [] : Comp P X W (List Ref))) :=
  .pure (fun _ _ => by simp [Refs])

theorem forBlock {n : Nat} {v : Val P} (hv : O.Plain n v) {step : Nat → Val P → Comp P X W (List Ref)} {rest : List (Stmt P)}
    (hs : ∀ m v, n ≤ m → O.Plain m v → Halts O G σ m Refs (fun i => step i v))
    (hl : ∀ m, n ≤ m → Halts O G σ m Refs (fun i => optBranch (Verif.translEach (𝓔 i) σ rest).getLast?)) :
    Halts O G σ n OptRefs (fun i => runPy (𝓔 i) (ops.iter v) >>= fun it =>
      Verif.forLoop (runPy (𝓔 i) (ops.next it)) (step i) i [] true >>= fun r =>
      Verif.loopResult r (lastElse rest (Verif.translEach (𝓔 i) σ rest)) >>= fun ns => Verif.withIndent σ ns) := by
  intro M hM hm
  obtain ⟨r, m', g1, g2, g3, g4, g5, g6⟩ := Halts.py_run (E := bounded ops ex ca) C (.iter (C.plain hv hm)) M hM (Nat.le_refl _)
  cases r with
  | timeout => exact absurd rfl g2
  | raise x =>
    refine ⟨0, .raise x, _, fun i _ => ?_, nofun, g3, g4, g5, fun _ hb => nomatch hb⟩
    beta_reduce
    rw [Comp.bind_run, g1 i]
    rfl
  | ok it =>
    obtain ⟨hi, hc⟩ := g6 it rfl
    obtain ⟨k, hk⟩ := C.iter hM.mem (C.plain hv hm) hc
    obtain ⟨N, r, M1, f1, f2, f3, f4, f5, f6⟩ := Halts.forLoop (E := bounded ops ex ca) C hi (step := step)
      (fun m v hm' hv => hs m v (Nat.le_trans hm (Nat.le_trans g4 hm')) hv) k ⟨M.states, m'⟩ [] true g3 (Nat.le_refl _) (by simp [Refs]) hk
    cases r with
    | timeout => exact absurd rfl f2
    | raise x =>
      refine ⟨N, .raise x, _, fun i hi => ?_, nofun, f3, Nat.le_trans g4 f4, g5.trans f5, fun _ hb => nomatch hb⟩
      beta_reduce
      rw [Comp.bind_run, g1 i]
      simp only [Comp.next]
      rw [Comp.bind_run, f1 i i hi hi]
      rfl
    | ok a =>
      have ha := f6 a rfl
      have hle : n ≤ M1.mem.next := Nat.le_trans hm (Nat.le_trans g4 f4)
      have hr : Halts O G σ M1.mem.next OptRefs (fun i =>
          Verif.loopResult a (lastElse rest (Verif.translEach (𝓔 i) σ rest)) >>= fun ns => Verif.withIndent σ ns) := by
        refine Halts.bind (Q := Refs) ?_ (fun _ _ _ hs => .withIndent hs)
        have hp : Halts O G σ M1.mem.next Refs (fun _ => (Pure.pure a.1 : Comp P X W (List Ref))) := .pure (fun _ hm => ha.mono hm)
        obtain ⟨ns, e⟩ := a
        cases e with
        | false => simpa only [Verif.loopResult] using hp
        | true =>
          unfold Verif.lastElse
          cases hany : rest.getLast?.any Stmt.isElse with
          | false => simpa only [Verif.loopResult, Bool.false_eq_true, if_false] using hp
          | true =>
            simp only [if_true]
            have hq := hl _ hle
            cases hg : rest.getLast? with
            | none => rw [hg] at hany; cases hany
            | some s =>
              simp only [translEach_eq, List.getLast?_map, hg, Option.map_some, optBranch, Verif.loopResult] at hq ⊢
              exact hq
      obtain ⟨N2, r2, M2, e1, e2, e3, e4, e5, e6⟩ := hr M1 f3 (Nat.le_refl _)
      refine ⟨max N N2, r2, M2, fun i hi => ?_, e2, e3, Nat.le_trans g4 (Nat.le_trans f4 e4), g5.trans (f5.trans e5), e6⟩
      beta_reduce
      rw [Comp.bind_run, g1 i]
      simp only [Comp.next]
      rw [Comp.bind_run, f1 i i (by omega) (by omega)]
      simp only [Comp.next]
      exact e1 i (by omega)

include hx in
set_option linter.unusedSectionVars false in
mutual
theorem transl : ∀ (n : Nat) (s : Stmt P), n0 ≤ n → s.orderly (O.Plain n0) G b → Halts O G σ n OptRefs (fun i => Verif.transl (𝓔 i) σ s)
  | n, .static s, hn, h => by
    simp only [Verif.transl]
    exact (Halts.translStatic C n s).isSome
  | n, .indent c, hn, h => by
    simp only [Verif.transl]
    exact (Halts.doIndent c).nothing
  | n, .dedent c, hn, h => by
    simp only [Verif.transl]
    exact (Halts.doDedent c).nothing
  | n, .line l, hn, h => by
    simp only [Verif.transl]; simp only [Stmt.orderly] at h
    exact (Halts.renderLine C n l h).bind (fun _ _ _ _ => (Halts.newText C _ _).bind
      (fun _ _ _ hr => .pure (fun _ hm => Refs.one (Nat.lt_of_lt_of_le hr hm))))
  | n, .xblock m mo s, hn, h => by
    simp only [Verif.transl]; simp only [Stmt.orderly] at h
    exact (Halts.translStatic C n m).bind (fun m1 _ h1 hm => (transl m1 s (Nat.le_trans hn h1) h).bind
      (fun _ _ h2 hb => (Halts.finishBlock mo (Refs.mono hm h2) hb).isSome))
  | n, .text lead items, hn, h => by
    simp only [Verif.transl]; simp only [Stmt.orderly] at h
    exact (Halts.renderText C n lead items h).bind (fun _ _ _ _ => (Halts.curIndent).bind (fun _ ind _ _ =>
      (Halts.newText C _ _).bind (fun _ _ _ hr => .pure (fun _ hm => Refs.one (Nat.lt_of_lt_of_le hr hm)))))
  | n, .comment, hn, h => by simp only [Verif.transl]; exact .empty
  | n, .embed e, hn, h => by
    simp only [Verif.transl]; simp only [Stmt.orderly] at h
    exact (Halts.eval C n e h).bind (fun _ _ _ hv => (Halts.asSequence C hv).bind (fun _ _ _ hs => .withIndent hs))
  | n, .struct tags s, hn, h => by
    simp only [Verif.transl]; simp only [Stmt.orderly] at h
    exact (transl n s hn h.2).bind (fun m _ hm hb => (Halts.applyTags C hx m (Nat.le_trans hn hm) _ (fun t ht => h.1 t (List.mem_reverse.mp ht)) hb).bind
      (fun _ _ _ hs => .withIndent hs))
  | n, .defn id _ none _ _ _, hn, h => by simp only [Verif.transl]; exact .raise _
  | n, .defn id _ (some sl) _ _ _, hn, h => by
    simp only [Verif.transl]; simp only [Stmt.orderly] at h
    exact (Halts.setSlot C sl (.inr ⟨id, rfl, h sl rfl⟩)).nothing
  | n, .imports _ _ items, hn, h => by
    simp only [Verif.transl]; simp only [Stmt.orderly] at h
    exact (Halts.translImports C n (fun i hi => Halts.import_mono C (h i hi) hn)).bind (fun _ _ _ _ => .empty)
  | n, .tryBlock bs, hn, h => by
    simp only [Verif.transl]; simp only [Stmt.orderly] at h
    exact (translTry n bs hn h).bind (fun _ _ _ hs => .withIndent hs)
  | n, .ifBlock cs els, hn, h => by
    simp only [Verif.transl]; simp only [Stmt.orderly] at h
    exact (translIf n cs els hn h.1 (fun m hm => translOpt m els (Nat.le_trans hn hm) h.2)).bind (fun _ _ _ hs => .withIndent hs)
  | n, .elseClause none, hn, h => by
    simp only [Verif.transl, Verif.translOpt, Verif.requiredBranch]
    exact (Halts.raise (Q := Refs) _).isSome
  | n, .elseClause (some s), hn, h => by
    simp only [Verif.transl, Verif.translOpt, Verif.requiredBranch]; simp only [Stmt.orderly, Stmt.orderlyOpt] at h
    exact (transl n s hn h).nodes.isSome
  | n, .whileBlock t o els, hn, h => by simp only [Stmt.orderly] at h
  | n, .forBlock t e rest, hn, h => by
    simp only [Verif.transl]; simp only [Stmt.orderly] at h
    exact (Halts.eval C n e h.1).bind (fun m1 v h1 hv => Halts.forBlock C hv
      (fun m v hm hv => (Halts.assignTarget C m t v hv).bind (fun m2 _ h2 _ => translFirst m2 rest (Nat.le_trans hn (Nat.le_trans h1 (Nat.le_trans hm h2))) h.2))
      (fun m hm => translLast m rest (Nat.le_trans hn (Nat.le_trans h1 hm)) h.2))
  | n, .exprBlock e, hn, h => by
    simp only [Verif.transl]; simp only [Stmt.orderly] at h
    exact (Halts.eval C n e h).nothing
  | n, .assign t op e, hn, h => by
    simp only [Verif.transl]; simp only [Stmt.orderly] at h
    exact (Halts.eval C n e h.1).bind (fun m v _ hv => (Halts.inplace C m t h.2 op hv).bind (fun m2 v _ hv => (Halts.assignTarget C m2 t v hv).nothing))
  | n, .body ss, hn, h => by
    simp only [Verif.transl]; simp only [Stmt.orderly] at h
    exact (Halts.keepIndent (translAll n ss hn h)).isSome
  | n, .pass, hn, h => by simp only [Verif.transl]; exact .empty
theorem translAll : ∀ (n : Nat) (ss : List (Stmt P)), n0 ≤ n → Stmt.orderlyAll (O.Plain n0) G b ss →
    Halts O G σ n Refs (fun i => Verif.translAll (𝓔 i) σ ss)
  | n, [], hn, _ => by simp only [Verif.translAll]; exact noRefs
  | n, s :: ss, hn, h => by
    simp only [Verif.translAll]; simp only [Stmt.orderlyAll] at h
    exact (transl n s hn h.1).bind (fun m _ hm ha => (translAll m ss (Nat.le_trans hn hm) h.2).bind (fun _ _ h2 hb =>
      .pure (fun _ hj => Refs.append (Refs.mono ha (Nat.le_trans h2 hj)) (hb.mono hj))))
theorem translTry : ∀ (n : Nat) (ss : List (Stmt P)), n0 ≤ n → Stmt.orderlyAll (O.Plain n0) G b ss →
    Halts O G σ n Refs (fun i => tryLoop (Verif.translEach (𝓔 i) σ ss))
  | n, [], hn, _ => by simp only [Verif.translEach, tryLoop]; exact noRefs
  | n, s :: ss, hn, h => by
    simp only [Verif.translEach, tryLoop]; simp only [Stmt.orderlyAll] at h
    exact .tryExcept (transl n s hn h.1).nodes (translTry n ss hn h.2)
theorem translIf : ∀ (n : Nat) (cs : List (Expr × Option (Stmt P))) (els : Option (Stmt P)),
    n0 ≤ n → Stmt.orderlyClauses (O.Plain n0) G b cs → (∀ m, n ≤ m → Halts O G σ m Refs (fun i => optBranch (Verif.translOpt (𝓔 i) σ els))) →
    Halts O G σ n Refs (fun i => Verif.translIf (𝓔 i) σ cs (Verif.translOpt (𝓔 i) σ els))
  | n, [], els, hn, _, he => by simp only [Verif.translIf]; exact he n (Nat.le_refl _)
  | n, c :: cs, els, hn, h, he => by
    simp only [Verif.translIf]; simp only [Stmt.orderlyClauses] at h
    have h1 : c.1.reads (NoTag G) := by
      obtain ⟨t, o⟩ := c; have := h.1; simp only [Stmt.orderlyClause] at this; exact this.1
    exact (Halts.eval C n c.1 h1).bind (fun m1 v hm1 hv => (Halts.truthOf C hv).bind (fun m2 _ hm2 _ =>
      .ite (translBranch m2 c (Nat.le_trans hn (Nat.le_trans hm1 hm2)) h.1)
        (translIf m2 cs els (Nat.le_trans hn (Nat.le_trans hm1 hm2)) h.2
          (fun m hm => he m (Nat.le_trans hm1 (Nat.le_trans hm2 hm))))))
theorem translBranch : ∀ (n : Nat) (c : Expr × Option (Stmt P)), n0 ≤ n → Stmt.orderlyClause (O.Plain n0) G b c →
    Halts O G σ n Refs (fun i => Verif.translBranch (𝓔 i) σ c)
  | n, (_, o), hn, h => by
    simp only [Verif.translBranch]; simp only [Stmt.orderlyClause] at h
    exact translOpt n o hn h.2
theorem translOpt : ∀ (n : Nat) (o : Option (Stmt P)), n0 ≤ n → Stmt.orderlyOpt (O.Plain n0) G b o →
    Halts O G σ n Refs (fun i => optBranch (Verif.translOpt (𝓔 i) σ o))
  | n, .none, hn, _ => by simp only [Verif.translOpt, optBranch]; exact noRefs
  | n, .some s, hn, h => by
    simp only [Verif.translOpt, optBranch]; simp only [Stmt.orderlyOpt] at h
    exact (transl n s hn h).nodes
theorem translFirst : ∀ (n : Nat) (ss : List (Stmt P)), n0 ≤ n → Stmt.orderlyAll (O.Plain n0) G b ss →
    Halts O G σ n Refs (fun i => optBranch (Verif.translEach (𝓔 i) σ ss).head?)
  | n, [], hn, _ => by simp only [Verif.translEach, List.head?_nil, optBranch]; exact noRefs
  | n, s :: ss, hn, h => by
    simp only [Verif.translEach, List.head?_cons, optBranch]; simp only [Stmt.orderlyAll] at h
    exact (transl n s hn h.1).nodes
theorem translLast : ∀ (n : Nat) (ss : List (Stmt P)), n0 ≤ n → Stmt.orderlyAll (O.Plain n0) G b ss →
    Halts O G σ n Refs (fun i => optBranch (Verif.translEach (𝓔 i) σ ss).getLast?)
  | n, [], hn, _ => by simp only [Verif.translEach, List.getLast?_nil, optBranch]; exact noRefs
  | n, [s], hn, h => by
    simp only [Verif.translEach, List.getLast?_singleton, optBranch]; simp only [Stmt.orderlyAll] at h
    exact (transl n s hn h.1).nodes
  | n, s :: t :: ss, hn, h => by
    have hl : ∀ i, (Verif.translEach (𝓔 i) σ (s :: t :: ss)).getLast? = (Verif.translEach (𝓔 i) σ (t :: ss)).getLast? := by
      intro i
      rw [translEach_eq, translEach_eq, List.map_cons, List.map_cons, List.getLast?_cons_cons]
    simp only [hl]
    rw [Stmt.orderlyAll] at h
    exact translLast n (t :: ss) hn h.2
end

end Halts
end
end Verif
