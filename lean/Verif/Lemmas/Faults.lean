import Verif.Spec.Faults
import Verif.Lemmas.FitLoad
import Verif.Lemmas.DefIds
import Verif.Lemmas.Post
import Verif.Lemmas.Html

/-! `setup` of the nodes of a tree fails at the first faulty node. -/

namespace Verif
open Py Spec

/-! ### What matters of a node -/

/-- The kind of a node after `setup`, as far as faults of its parent depend on it. -/
inductive Sig where
  | attr (name : Option Str)
  | name (value : Str)
  | qual
  | op
  | var
  | targets (one : Bool)
  | other
  deriving DecidableEq

section
variable {P : Type}

def oneVar : List Sig → Bool
  | [.var] => true
  | _ => false

def oneTarget : List Target → Bool
  | [.var ..] => true
  | _ => false

def targetSig : Target → Sig
  | .var .. => .var
  | .many ts => .targets (oneTarget ts)

def Built.sig : Built P → Sig
  | .attr a => .attr a.name
  | .str n w => if n = .name_id ∨ n = .name_xml then .name w else .other
  | .qual _ => .qual
  | .op _ => .op
  | .target t => targetSig t
  | _ => .other

def firstName : List Sig → Str
  | .name w :: _ => w
  | _ => []

/-- The signature of a node with the given type, text, and signatures of children. -/
def nodeSig (n : NT) (w : Str) (ss : List Sig) : Sig :=
  match n with
  | .attr_unnamed => .attr none
  | .attr_named => .attr (some (firstName ss))
  | .attr_def | .attr_body => .attr (some (firstName ss))
  | .attr_short => .attr (some (if w.head? = some '.' then s!!"class" else s!!"id"))
  | .name_id | .name_xml => .name w
  | .qualifier => .qual
  | .op_inplace | .op_multiplic | .op_additive | .op_power | .op_shift | .op_comp => .op
  | .var_def => .var
  | .targets => .targets (oneVar ss)
  | _ => .other

def misplaced : Bool → List Sig → Bool
  | _, [] => false
  | seen, .attr none :: ss => seen || misplaced seen ss
  | _, .attr (some _) :: ss => misplaced true ss
  | seen, _ :: ss => misplaced seen ss

def sigName : Sig → Option Str
  | .attr n => n
  | _ => none

/-- The fault of a node. -/
def sigFault (names : Str → Option Char) (n : NT) (w : Str) (ss : List Sig) : Option SetupErr :=
  match n with
  | .tag_expand => if misplaced false ss then some .syntax else none
  | .block_def => if (ss.filterMap sigName).Nodup then none else some .syntax
  | .block_assign =>
    match ss with
    | t :: ss => if .op ∈ ss ∧ t ≠ .targets true then some .syntax else none
    | [] => none
  | .attr_unnamed | .attr_def | .block_expr => if .qual ∈ ss then some .assertion else none
  | .text_quot1 | .text_quot2 => if decodeEscapes names w = none then some .decode else none
  | _ => none

theorem attachQuals_sig (bs : List (Built P)) : (attachQuals bs).map Built.sig = bs.map Built.sig := by
  fun_induction attachQuals bs with
  | case1 => simp_all [Built.sig]
  | case2 => simp_all
  | case3 => rfl

/-! ### Signatures -/

theorem asTargets_one {cs : List (Built P)} {ts : List Target} (h : asTargets cs = .ok ts) :
    oneTarget ts = oneVar (cs.map Built.sig) := by
  have key : ∀ (cs : List (Built P)) (ts : List Target), asTargets cs = .ok ts → cs.map Built.sig = ts.map targetSig := by
    intro cs
    fun_induction asTargets cs with
    | case1 => intro ts h; cases h; rfl
    | case2 t bs ih =>
      intro ts h
      obtain ⟨x, h1, h2⟩ := Except.bind_eq_ok.1 h
      cases h2
      simp [Built.sig, ih _ h1]
    | case3 => intro ts h; cases h
  rw [key cs ts h]
  match ts with
  | [] => rfl
  | [.var ..] => rfl
  | [.many _] => rfl
  | .var .. :: _ :: _ => rfl
  | .many _ :: _ :: _ => rfl

theorem setupExpr_sig (names : Str → Option Char) (n : NT) (w : Str) (cs : List (Built P)) :
    Post (fun b : Built P => b.sig = nodeSig n w (cs.map Built.sig)) (setupExpr names n w cs) := by
  intro b h
  unfold setupExpr at h
  repeat' split at h
  all_goals first
    | (cases h; done)
    | (cases h; rfl)
    | (obtain ⟨x, -, h2⟩ := Except.bind_eq_ok.1 h; cases h2; rfl)

theorem setup_sig (names : Str → Option Char) (full : Str) (n : NT) (pos : Nat) (w : Str) (cs : List (Built P)) :
    Post (fun b : Built P => b.sig = nodeSig n w (cs.map Built.sig)) (setup names full n pos w cs) := by
  intro b h
  unfold setup at h
  split at h
  all_goals try split at h
  all_goals first
    | (cases h; done)
    | (cases h; rfl)
    | (obtain ⟨x, -, h2⟩ := Except.bind_eq_ok.1 h; cases h2; rfl)
    | (exact setupExpr_sig names _ _ _ _ h)
    | (simp only at h; split at h <;> cases h <;> simp [Built.sig, nodeSig, *]; done)
    | (obtain ⟨x, h1, h2⟩ := Except.bind_eq_ok.1 h; cases h2; exact congrArg Sig.targets (asTargets_one h1))

/-- The signature of a tree. -/
def treeSig : RTree → Sig
  | .str _ _ => .other
  | .node n _ w cs => nodeSig n w (cs.map treeSig)

mutual
theorem build_sig (names : Str → Option Char) (full : Str) : ∀ (t : RTree) (b : Built P), build names full t = .ok b → b.sig = treeSig t
  | .str _ _, b, h => by simp [build] at h
  | .node n pos w cs, b, h => by
    unfold build at h
    split at h
    · rename_i bs hb
      rw [setup_sig names full n pos w _ b h, attachQuals_sig, buildAll_sig names full cs bs hb, treeSig]
    · cases h
theorem buildAll_sig (names : Str → Option Char) (full : Str) : ∀ (ts : List RTree) (bs : List (Built P)), buildAll names full ts = .ok bs →
    bs.map Built.sig = ts.map treeSig
  | [], bs, h => by cases h; rfl
  | t :: ts, bs, h => by
    unfold buildAll at h
    split at h
    · rename_i b hb
      split at h
      · rename_i bs' hbs
        cases h
        rw [List.map_cons, List.map_cons, build_sig names full t b hb, buildAll_sig names full ts bs' hbs]
      · cases h
    · cases h
end

/-! ### Faults -/

/-- Either a result, if there is no fault, or the given fault. -/
def Faulty {α : Type} (f : Option SetupErr) (r : Except SetupErr α) : Prop :=
  match r with
  | .ok _ => f = none
  | .error e => e = .malformed ∨ f = some e

theorem Faulty.ok {α : Type} {a : α} : Faulty none (.ok a : Except SetupErr α) := rfl
theorem Faulty.bad {α : Type} {f : Option SetupErr} : Faulty f (.error .malformed : Except SetupErr α) := .inl rfl

theorem Faulty.bind {α β : Type} {f : Option SetupErr} {r : Except SetupErr α} {g : α → Except SetupErr β} (h : Faulty f r)
    (hg : ∀ a, r = .ok a → f = none → Faulty f (g a)) : Faulty f (r >>= g) := by
  cases r with
  | ok a => exact hg a rfl h
  | error e => exact h

/-- Functions that reject nothing else than malformed trees. -/
theorem asExprs_faulty (cs : List (Built P)) : Faulty none (asExprs cs) := by
  fun_induction asExprs cs with
  | case1 => exact .ok
  | case2 _ _ _ ih => exact .bind ih fun _ _ _ => .ok
  | case3 => exact .bad

theorem asParts_faulty (cs : List (Built P)) : Faulty none (asParts cs) := by
  fun_induction asParts cs with
  | case1 => exact .ok
  | case2 _ _ _ ih => exact .bind ih fun _ _ _ => .ok
  | case3 _ _ _ ih => exact .bind ih fun _ _ _ => .ok
  | case4 _ _ ih => exact .bind ih fun _ _ _ => .ok
  | case5 => exact .bad

theorem asArgs_faulty (cs : List (Built P)) : Faulty none (asArgs cs) := by
  fun_induction asArgs cs with
  | case1 => exact .ok
  | case2 _ _ _ ih => exact .bind ih fun _ _ _ => .ok
  | case3 _ _ _ ih => exact .bind ih fun _ _ _ => .ok
  | case4 => exact .bad

theorem asTails_faulty (cs : List (Built P)) : Faulty none (asTails cs) := by
  fun_induction asTails cs with
  | case1 => exact .ok
  | case2 => exact .ok
  | case3 _ _ ih => exact .bind ih fun _ _ _ => .ok
  | case4 => exact .bad

theorem asChain_faulty (cs : List (Built P)) : Faulty none (asChain cs) := by
  fun_induction asChain cs with
  | case1 => exact .ok
  | case2 _ _ _ _ ih => exact .bind ih fun _ _ _ => .ok
  | case3 => exact .bad

theorem asNots_faulty (cs : List (Built P)) : Faulty none (asNots cs) := by
  fun_induction asNots cs with
  | case1 => exact .ok
  | case2 _ ih => exact .bind ih fun _ _ _ => .ok
  | case3 => exact .bad

theorem asItems_faulty (cs : List (Built P)) : Faulty none (asItems cs) := by
  fun_induction asItems cs with
  | case1 => exact .ok
  | case2 _ _ ih => exact .bind ih fun _ _ _ => .ok
  | case3 _ _ ih => exact .bind ih fun _ _ _ => .ok
  | case4 _ _ ih => exact .bind ih fun _ _ _ => .ok
  | case5 _ _ ih => exact .bind ih fun _ _ _ => .ok
  | case6 => exact .bad

theorem asStmts_faulty (cs : List (Built P)) : Faulty none (asStmts cs) := by
  fun_induction asStmts cs with
  | case1 => exact .ok
  | case2 _ _ ih => exact .bind ih fun _ _ _ => .ok
  | case3 _ _ ih => exact .bind ih fun _ _ _ => .ok
  | case4 _ _ ih => exact .bind ih fun _ _ _ => .ok
  | case5 _ _ ih => exact .bind ih fun _ _ _ => .ok
  | case6 _ _ ih => exact .bind ih fun _ _ _ => .ok
  | case7 => exact .bad

theorem asTargets_faulty (cs : List (Built P)) : Faulty none (asTargets cs) := by
  fun_induction asTargets cs with
  | case1 => exact .ok
  | case2 _ _ ih => exact .bind ih fun _ _ _ => .ok
  | case3 => exact .bad

theorem asTags_faulty (cs : List (Built P)) : Faulty none (asTags cs) := by
  fun_induction asTags cs with
  | case1 => exact .ok
  | case2 _ _ ih => exact .bind ih fun _ _ _ => .ok
  | case3 => exact .bad

theorem asItemsOf_faulty (cs : List (Built P)) : Faulty none (asItemsOf cs) := by
  fun_induction asItemsOf cs with
  | case1 => exact .ok
  | case2 _ _ ih => exact .bind ih fun _ _ _ => .ok
  | case3 => exact .bad

theorem splitClauses_faulty (cs : List (Built P)) : Faulty none (splitClauses cs) := by
  fun_induction splitClauses cs with
  | case1 => exact .ok
  | case2 => exact .ok
  | case3 _ _ _ ih => exact .bind ih fun _ _ _ => .ok
  | case4 => exact .bad

theorem setupEscape_faulty (w : Str) : Faulty none (setupEscape w) := by
  unfold setupEscape
  split
  · split
    · exact .ok
    · exact .bad
  · exact .bad

theorem splitDef_faulty (cs : List (Built P)) : Faulty none (splitDef cs) := by
  fun_induction splitDef cs with
  | case1 => exact .ok
  | case2 _ _ _ _ ih => exact .bind ih fun _ _ _ => .ok
  | case3 => exact .bad

theorem splitDef_names {cs : List (Built P)} {r : List (AttrDef × Bool) × Stmt P} (h : splitDef cs = .ok r) :
    r.1.map (fun a => a.1.name) = (cs.map Built.sig).filterMap sigName := by
  fun_induction splitDef cs generalizing r with
  | case1 => cases h; rfl
  | case2 n e b bs ih =>
    obtain ⟨x, h1, h2⟩ := Except.bind_eq_ok.1 h
    cases h2
    simp [Built.sig, sigName, ih h1]
  | case3 => cases h

theorem setupDef_faulty (pos : Nat) (name : Str) (cs : List (Built P)) :
    Faulty (if ((cs.map Built.sig).filterMap sigName).Nodup then none else some .syntax) (setupDef pos name cs) := by
  unfold setupDef
  cases h : splitDef cs with
  | error e =>
    have h1 := splitDef_faulty cs
    rw [h] at h1
    rcases h1 with rfl | h1
    · exact .bad
    · cases h1
  | ok r =>
    rw [← splitDef_names h]
    simp only [bind, Except.bind]
    by_cases hn : (r.1.map (fun a => a.1.name)).Nodup
    · rw [if_pos hn, if_neg (by simpa using hn)]
      split <;> exact rfl
    · rw [if_neg hn, if_pos hn]
      exact .inr rfl

theorem collectAttrs_faulty (cs : List (Built P)) (us : List Expr) (ns : List (Str × Expr)) :
    Faulty (if misplaced (decide (ns ≠ [])) (cs.map Built.sig) then some .syntax else none) (collectAttrs cs us ns) := by
  fun_induction collectAttrs cs us ns with
  | case1 => exact .ok
  | case2 _ _ _ _ ns h => simp [Built.sig, misplaced, h, Faulty]
  | case3 _ _ _ _ ns h ih => simpa [Built.sig, misplaced, h] using ih
  | case4 _ _ _ _ _ _ ih => simpa [Built.sig, misplaced] using ih
  | case5 => exact .bad

theorem setInplace_faulty (t : Target) : Faulty (if targetSig t ≠ .targets true then some .syntax else none) (setInplace t) := by
  match t with
  | .var .. => exact .inr rfl
  | .many [] => exact .inr rfl
  | .many [.var ..] => exact rfl
  | .many [.many _] => exact .inr rfl
  | .many (.var .. :: _ :: _) => exact .inr rfl
  | .many (.many _ :: _ :: _) => exact .inr rfl

theorem setupAssign_faulty (cs : List (Built P)) (names : Str → Option Char) (w : Str) :
    Faulty (sigFault names .block_assign w (cs.map Built.sig)) (setupAssign cs) := by
  unfold setupAssign
  split
  · simp [sigFault, Built.sig, Faulty]
  · simp [sigFault, Built.sig, Faulty]
  · refine .bind ?_ fun _ _ h => h
    simpa [sigFault, Built.sig] using setInplace_faulty _
  · refine .bind ?_ fun _ _ h => h
    simpa [sigFault, Built.sig] using setInplace_faulty _
  · exact .bad

theorem setupExpr_faulty (names : Str → Option Char) (n : NT) (w : Str) (cs : List (Built P))
    (h : n ≠ .attr_unnamed ∧ n ≠ .attr_def ∧ n ≠ .block_expr ∧ n ≠ .block_assign ∧ n ≠ .block_def ∧ n ≠ .tag_expand) :
    Faulty (sigFault names n w (cs.map Built.sig)) (setupExpr names n w cs) := by
  obtain ⟨h1, h2, h3, h4, h5, h6⟩ := h
  unfold setupExpr
  repeat' split
  all_goals first
    | exact .bad
    | exact rfl
    | exact .bind (asExprs_faulty _) fun _ _ _ => .ok
    | exact .bind (asParts_faulty _) fun _ _ _ => .ok
    | exact .bind (asArgs_faulty _) fun _ _ _ => .ok
    | exact .bind (asTails_faulty _) fun _ _ _ => .ok
    | exact .bind (asChain_faulty _) fun _ _ _ => .ok
    | exact .bind (asNots_faulty _) fun _ _ _ => .ok
    | exact .bind (setupEscape_faulty _) fun _ _ _ => .ok
    | (simp [sigFault, Faulty, *]; done)

theorem setup_faulty (names : Str → Option Char) (full : Str) (n : NT) (pos : Nat) (w : Str) (cs : List (Built P)) :
    Faulty (sigFault names n w (cs.map Built.sig)) (setup names full n pos w cs) := by
  unfold setup
  split
  all_goals try split
  all_goals first
    | exact .bad
    | exact rfl
    | exact .bind (asParts_faulty _) fun _ _ _ => .ok
    | exact .bind (asItems_faulty _) fun _ _ _ => .ok
    | exact .bind (asStmts_faulty _) fun _ _ _ => .ok
    | exact .bind (asTargets_faulty _) fun _ _ _ => .ok
    | exact .bind (asTags_faulty _) fun _ _ _ => .ok
    | exact .bind (asItemsOf_faulty _) fun _ _ _ => .ok
    | exact .bind (splitClauses_faulty _) fun _ _ _ => .ok
    | exact .bind (setupAssign_faulty _ _ _) fun _ _ h => h
    | exact .bind (setupDef_faulty _ _ _) fun _ _ h => h
    | exact .bind (collectAttrs_faulty _ _ _) fun _ _ h => h
    | (simp [sigFault, Built.sig, Faulty]; done)
    | (apply setupExpr_faulty; simp_all; done)
    | (simp only; split <;> first | exact rfl | exact .bad)

/-- The fault of a node of a tree. -/
def treeFault (names : Str → Option Char) : RTree → Option SetupErr
  | .node n _ w cs => sigFault names n w (cs.map treeSig)
  | .str .. => none

mutual
/-- Nodes of a tree, children first: a fault, or none. -/
theorem build_faulty (names : Str → Option Char) (full : Str) : ∀ t : RTree,
    Faulty ((postorder t).findSome? (treeFault names))
      (build names full t : Except SetupErr (Built P))
  | .str _ _ => .bad
  | .node n pos w cs => by
    have ih := buildAll_faulty names full cs
    unfold build
    rw [postorder, List.findSome?_append]
    split
    · rename_i bs hb
      rw [hb] at ih
      have h1 := setup_faulty names full n pos w (attachQuals bs)
      rw [attachQuals_sig, buildAll_sig names full cs bs hb] at h1
      rw [show List.findSome? _ (postorders cs) = _ from ih]
      simpa [treeFault] using h1
    · rename_i e hb
      rw [hb] at ih
      rcases ih with rfl | ih
      · exact .bad
      · refine .inr ?_
        rw [ih]; rfl
theorem buildAll_faulty (names : Str → Option Char) (full : Str) : ∀ ts : List RTree,
    Faulty ((postorders ts).findSome? (treeFault names))
      (buildAll names full ts : Except SetupErr (List (Built P)))
  | [] => .ok
  | t :: ts => by
    have h1 := build_faulty names full t
    have h2 := buildAll_faulty names full ts
    unfold buildAll
    rw [postorders, List.findSome?_append]
    cases hb : build (P := P) names full t with
    | error e =>
      rw [hb] at h1
      rcases h1 with rfl | h1
      · exact .bad
      · refine .inr ?_
        rw [h1]; rfl
    | ok b =>
      rw [hb] at h1
      rw [show List.findSome? _ (postorder t) = _ from h1]
      simp only
      cases hbs : buildAll (P := P) names full ts with
      | error e => rw [hbs] at h2; exact h2
      | ok bs => rw [hbs] at h2; exact h2
end

/-! ### Faults of trees -/

theorem nodeSig_name {n : NT} {w v : Str} {ss : List Sig} (h : nodeSig n w ss = .name v) : (n = .name_id ∨ n = .name_xml) ∧ w = v := by
  unfold nodeSig at h
  split at h <;> cases h <;> simp

theorem firstName_tree (cs : List RTree) : firstName (cs.map treeSig) = leadingName cs := by
  match cs with
  | [] => rfl
  | .str _ _ :: _ => simp [treeSig, firstName, leadingName]
  | .node n p w ds :: cs =>
    simp only [List.map_cons, treeSig]
    generalize hs : nodeSig n w (ds.map treeSig) = s
    cases s with
    | name v =>
      obtain ⟨rfl | rfl, rfl⟩ := nodeSig_name hs <;> rfl
    | _ =>
      unfold leadingName
      split
      · rename_i heq; cases heq; cases hs
      · rename_i heq; cases heq; cases hs
      · rfl

theorem sigName_tree (c : RTree) : sigName (treeSig c) = attrName c := by
  match c with
  | .str _ _ => simp [treeSig, sigName, attrName]
  | .node n p w cs =>
    rw [treeSig]
    unfold nodeSig
    split
    all_goals (unfold attrName; split <;> simp_all [sigName, firstName_tree])

theorem unnamed_tree (c : RTree) : treeSig c = .attr none ↔ IsNode .attr_unnamed c := by
  match c with
  | .str _ _ => simp [treeSig, IsNode]
  | .node n p w cs =>
    rw [treeSig]
    unfold nodeSig IsNode
    split <;> simp_all

theorem named_tree (c : RTree) : (∃ v, treeSig c = .attr (some v)) ↔ NamedAttr c := by
  match c with
  | .str _ _ => simp [treeSig, NamedAttr, IsNode]
  | .node n p w cs =>
    rw [treeSig]
    unfold nodeSig NamedAttr IsNode
    split <;> simp_all

theorem qual_tree (c : RTree) : treeSig c = .qual ↔ IsNode .qualifier c := by
  match c with
  | .str _ _ => simp [treeSig, IsNode]
  | .node n p w cs =>
    rw [treeSig]
    unfold nodeSig IsNode
    split <;> simp_all

theorem op_tree (c : RTree) : treeSig c = .op ↔ Operator c := by
  match c with
  | .str _ _ => simp [treeSig, Operator, IsNode]
  | .node n p w cs =>
    rw [treeSig]
    unfold nodeSig Operator IsNode
    split <;> simp_all

theorem var_tree (c : RTree) : treeSig c = .var ↔ IsNode .var_def c := by
  match c with
  | .str _ _ => simp [treeSig, IsNode]
  | .node n p w cs =>
    rw [treeSig]
    unfold nodeSig IsNode
    split <;> simp_all

theorem oneVar_tree (cs : List RTree) : oneVar (cs.map treeSig) = true ↔ ∃ p w ds, cs = [.node .var_def p w ds] := by
  match cs with
  | [] => simp [oneVar]
  | [c] =>
    simp only [List.map_cons, List.map_nil, List.cons.injEq, and_true]
    have := var_tree c
    unfold IsNode at this
    rw [← this]
    generalize treeSig c = s
    cases s <;> simp [oneVar]
  | a :: b :: cs => simp [oneVar]

theorem one_tree (c : RTree) : treeSig c = .targets true ↔ OneVariable c := by
  match c with
  | .str _ _ => simp [treeSig, OneVariable]
  | .node n p w cs =>
    rw [treeSig]
    unfold nodeSig
    split
    case h_16 =>
      simp only [Sig.targets.injEq, oneVar_tree]
      constructor
      · rintro ⟨p, w, ds, rfl⟩; trivial
      · intro h
        unfold OneVariable at h
        split at h
        · rename_i heq; cases heq; exact ⟨_, _, _, rfl⟩
        · cases h
    all_goals simp_all [OneVariable]

theorem seen_split {p q : RTree → Prop} {c : RTree} {cs : List RTree} : (∃ l a m b r, c :: cs = l ++ a :: (m ++ b :: r) ∧ p a ∧ q b) ↔
    (p c ∧ ∃ b ∈ cs, q b) ∨ ∃ l a m b r, cs = l ++ a :: (m ++ b :: r) ∧ p a ∧ q b := by
  constructor
  · rintro ⟨l, a, m, b, r, h, ha, hb⟩
    cases l with
    | nil =>
      cases h
      exact .inl ⟨ha, b, by simp, hb⟩
    | cons d l =>
      cases h
      exact .inr ⟨l, a, m, b, r, rfl, ha, hb⟩
  · rintro (⟨hc, b, hb, hq⟩ | ⟨l, a, m, b, r, h, ha, hb⟩)
    · obtain ⟨m, r, rfl⟩ := List.append_of_mem hb
      exact ⟨[], c, m, b, r, rfl, hc, hq⟩
    · exact ⟨c :: l, a, m, b, r, by simp [h], ha, hb⟩

theorem misplaced_tree (cs : List RTree) (seen : Bool) : misplaced seen (cs.map treeSig) = true ↔
    (seen = true ∧ ∃ b ∈ cs, IsNode .attr_unnamed b) ∨
      ∃ l a m b r, cs = l ++ a :: (m ++ b :: r) ∧ NamedAttr a ∧ IsNode .attr_unnamed b := by
  induction cs generalizing seen with
  | nil => simp [misplaced]
  | cons c cs ih =>
    rw [seen_split]
    have h1 := unnamed_tree c
    have h2 := named_tree c
    rw [List.map_cons]
    generalize treeSig c = s at h1 h2
    by_cases hu : s = .attr none
    · subst hu
      have hc := h1.1 rfl
      have hn : ¬ NamedAttr c := fun h => by obtain ⟨v, hv⟩ := h2.2 h; cases hv
      simp only [misplaced, Bool.or_eq_true, ih, hn, false_and, false_or, List.mem_cons, exists_eq_or_imp, hc, true_or, and_true]
      by_cases hs : seen = true <;> simp [hs]
    · have hc : ¬ IsNode .attr_unnamed c := fun h => hu (h1.2 h)
      by_cases hv : ∃ v, s = .attr (some v)
      · have hn := h2.1 hv
        obtain ⟨v, rfl⟩ := hv
        simp only [misplaced, ih, List.mem_cons, exists_eq_or_imp, hc, false_or, hn, true_and]
        constructor
        · rintro (h | h)
          · exact .inr (.inl h)
          · exact .inr (.inr h)
        · rintro (h | h | h)
          · exact .inl h.2
          · exact .inl h
          · exact .inr h
      · have hn : ¬ NamedAttr c := fun h => hv (h2.2 h)
        have hm : misplaced seen (s :: cs.map treeSig) = misplaced seen (cs.map treeSig) := by
          cases s with
          | attr n => cases n with
            | none => exact absurd rfl hu
            | some v => exact absurd ⟨v, rfl⟩ hv
          | _ => rfl
        simp only [hm, ih, List.mem_cons, exists_eq_or_imp, hc, false_or, hn, false_and]

/-- The two descriptions of faults agree. -/
theorem fault_iff (names : Str → Option Char) (u : RTree) (e : SetupErr) : Fault names u e ↔ treeFault names u = some e := by
  constructor
  · intro h
    cases h with
    | order ha hb =>
      simp only [treeFault, sigFault]
      rw [if_pos ((misplaced_tree _ _).2 (.inr ⟨_, _, _, _, _, rfl, ha, hb⟩))]
    | params h =>
      simp only [treeFault, sigFault, List.filterMap_map]
      rw [if_neg]
      rwa [show sigName ∘ treeSig = attrName from funext sigName_tree]
    | inplace ho ht =>
      obtain ⟨c, hc, ho⟩ := ho
      simp only [treeFault, sigFault, List.map_cons]
      rw [if_pos ⟨List.mem_map.2 ⟨c, hc, (op_tree c).2 ho⟩, fun h => ht ((one_tree _).1 h)⟩]
    | qualifier hn hq =>
      obtain ⟨c, hc, hq⟩ := hq
      have := List.mem_map.2 ⟨c, hc, (qual_tree c).2 hq⟩
      rcases hn with rfl | rfl | rfl <;> simp only [treeFault, sigFault] <;> rw [if_pos this]
    | escape hn h => rcases hn with rfl | rfl <;> simp only [treeFault, sigFault] <;> rw [if_pos h]
  · intro h
    match u with
    | .str .. => cases h
    | .node n p w cs =>
      simp only [treeFault] at h
      unfold sigFault at h
      split at h
      · split at h
        · rename_i hm
          cases h
          rcases (misplaced_tree _ _).1 hm with h | ⟨l, a, m, b, r, rfl, ha, hb⟩
          · exact absurd h.1 (by decide)
          · exact .order ha hb
        · cases h
      · split at h
        · cases h
        · rename_i hn
          cases h
          rw [List.filterMap_map, show sigName ∘ treeSig = attrName from funext sigName_tree] at hn
          exact .params hn
      · split at h
        · rename_i t ss hcs
          split at h
          · rename_i hm
            cases h
            cases cs with
            | nil => cases hcs
            | cons c cs =>
              cases hcs
              obtain ⟨d, hd, ho⟩ := List.mem_map.1 hm.1
              exact .inplace ⟨d, hd, (op_tree d).1 ho⟩ fun h => hm.2 ((one_tree c).2 h)
          · cases h
        · cases h
      iterate 3
        · split at h
          · rename_i hm
            cases h
            obtain ⟨d, hd, ho⟩ := List.mem_map.1 hm
            exact .qualifier (by simp) ⟨d, hd, (qual_tree d).1 ho⟩
          · cases h
      iterate 2
        · split at h
          · rename_i hm
            cases h
            exact .escape (by simp) hm
          · cases h
      · cases h

theorem firstFault_iff (names : Str → Option Char) (us : List RTree) (e : SetupErr) :
    us.findSome? (treeFault names) = some e ↔ FirstFault names us e := by
  induction us with
  | nil => simp [FirstFault]
  | cons u us ih =>
    rw [List.findSome?_cons]
    cases h : treeFault names u with
    | some e' =>
      simp only [Option.some.injEq]
      constructor
      · rintro rfl
        exact ⟨[], u, us, rfl, (fault_iff _ _ _).2 h, by simp⟩
      · rintro ⟨l, v, r, hl, hv, hno⟩
        cases l with
        | nil =>
          cases hl
          rw [fault_iff, h] at hv
          exact Option.some.inj hv
        | cons d l =>
          cases hl
          exact absurd ((fault_iff _ _ _).2 h) (hno u (by simp) e')
    | none =>
      simp only [ih]
      constructor
      · rintro ⟨l, v, r, rfl, hv, hno⟩
        refine ⟨u :: l, v, r, rfl, hv, ?_⟩
        intro d hd e'
        rcases List.mem_cons.1 hd with rfl | hd
        · rw [fault_iff, h]; simp
        · exact hno d hd e'
      · rintro ⟨l, v, r, hl, hv, hno⟩
        cases l with
        | nil =>
          cases hl
          rw [fault_iff, h] at hv
          cases hv
        | cons d l =>
          cases hl
          exact ⟨l, v, r, rfl, hv, fun x hx => hno x (by simp [hx])⟩

theorem noFault_iff (names : Str → Option Char) (us : List RTree) :
    us.findSome? (treeFault names) = none ↔ ∀ u ∈ us, ∀ e, ¬ Fault names u e := by
  rw [List.findSome?_eq_none_iff]
  refine forall_congr' fun u => forall_congr' fun _ => ?_
  simp only [fault_iff]
  cases treeFault names u <;> simp

/-- Nodes of a parsed script. -/
theorem load_faults {M : Marks} {U : Uni} [MarksApart M U] {names : Str → Option Char} {script flat : Str} {t : PTree NT}
    (hp : preprocess M script = .ok flat) (ht : parse M U flat = .ok t) :
    ((∃ ss, loadScript (P := P) M U names script = .ok ss) ↔ ∀ u ∈ postorders (rewrite 0 t), ∀ e, ¬ Fault names u e) ∧
    ∀ e, loadScript (P := P) M U names script = .error (.setup e) ↔ FirstFault names (postorders (rewrite 0 t)) e := by
  have h1 := (load_fit (P := P) (M := M) (U := U) (names := names) (script := script)).2
  have h2 := buildAll_faulty (P := P) names flat (rewrite 0 t)
  simp only [← firstFault_iff, ← noFault_iff]
  unfold loadScript at h1 ⊢
  simp only [hp, ht] at h1 ⊢
  cases hb : buildAll (P := P) names flat (rewrite 0 t) with
  | error e =>
    rw [hb] at h1 h2
    rcases h2 with rfl | h2
    · exact absurd rfl h1
    · simp [h2]
  | ok bs =>
    rw [hb] at h1 h2
    rw [show List.findSome? _ _ = none from h2]
    simp only at h1 ⊢
    split
    · rename_i ss heq
      cases heq
      simp
    · rename_i hne heq
      cases heq
      split at h1
      · rename_i ss heq'
        exact absurd (Except.ok.inj heq') (hne ss)
      · exact absurd rfl h1
      · rename_i h; cases h
    · rename_i h; cases h

end
end Verif
