import Verif.Lemmas.Policy

/-! Evaluation of expressions keeps to a policy. -/

namespace Verif
open Py Spec

theorem Dict.mem_of_get? {K V : Type} [DecidableEq K] {d : Dict K V} {k : K} {v : V} (h : Dict.get? d k = some v) : (k, v) ∈ d := by
  induction d with
  | nil => cases h
  | cons a d ih =>
    obtain ⟨k', v'⟩ := a
    rw [Dict.get?] at h
    split at h
    · cases h; subst k'; simp
    · exact List.mem_cons_of_mem _ (ih h)

theorem Dict.mem_erase {K V : Type} [DecidableEq K] {d : Dict K V} {k : K} {a : K × V} (h : a ∈ Dict.erase d k) : a ∈ d := by
  induction d with
  | nil => cases h
  | cons b d ih =>
    obtain ⟨k', v'⟩ := b
    rw [Dict.erase] at h
    split at h
    · exact List.mem_cons_of_mem _ h
    · rcases List.mem_cons.1 h with h | h
      · exact h ▸ List.mem_cons_self
      · exact List.mem_cons_of_mem _ (ih h)

theorem Dict.mem_set {K V : Type} [DecidableEq K] {d : Dict K V} {k : K} {v : V} {a : K × V} (h : a ∈ Dict.set d k v) :
    a = (k, v) ∨ a ∈ d := by
  induction d with
  | nil => simpa [Dict.set] using h
  | cons b d ih =>
    obtain ⟨k', v'⟩ := b
    rw [Dict.set] at h
    split at h
    · subst k'
      rcases List.mem_cons.1 h with h | h
      · exact .inl h
      · exact .inr (List.mem_cons_of_mem _ h)
    · rcases List.mem_cons.1 h with h | h
      · exact .inr (h ▸ List.mem_cons_self)
      · exact (ih h).imp_right (List.mem_cons_of_mem _)

theorem Dict.mem_update {K V : Type} [DecidableEq K] {d ps : Dict K V} {a : K × V} (h : a ∈ Dict.update d ps) : a ∈ d ∨ a ∈ ps := by
  induction ps generalizing d with
  | nil => exact .inl h
  | cons b ps ih =>
    obtain ⟨k, v⟩ := b
    rw [Dict.update] at h
    rcases ih h with h | h
    · rcases Dict.mem_set h with h | h
      · exact .inr (h ▸ List.mem_cons_self)
      · exact .inl h
    · exact .inr (List.mem_cons_of_mem _ h)

section
variable {P X W α β : Type} {L : Policy P W} {E : Env P X W} (F : L.Fair E)
include F

namespace Spec.Policy.Fair

theorem ret {n : Nat} {v : Val P} (h : L.Value n v) : Conforms L n L.Value (Pure.pure v : Comp P X W (Val P)) :=
  .pure (fun _ hm => F.laws.value h hm)

theorem truthOf {n : Nat} {v : Val P} (h : L.Value n v) : Conforms L n (fun _ _ => True) (truthOf E v) := by
  cases h with
  | py h => exact F.py (.truth h)
  | _ => exact .pure (fun _ _ => trivial)

theorem strOf {n : Nat} {v : Val P} (h : L.Value n v) : Conforms L n (fun _ _ => True) (strOf E v) := by
  cases v with
  | str s => exact .pure (fun _ _ => trivial)
  | _ => exact F.py (.str h)

theorem STR {n : Nat} {v : Val P} (h : L.Value n v) : Conforms L n (fun _ _ => True) (STR E v) := by
  cases v with
  | none => exact .raise _
  | _ => exact F.strOf h

theorem binOp {n : Nat} (op : Str) {a b : Val P} (ha : L.Value n a) (hb : L.Value n b) : Conforms L n L.Value (binOp E op a b) := by
  unfold Verif.binOp
  split
  · exact F.ret (.str _)
  · exact F.ret (.str _)
  · exact F.py (.bin ha hb)

omit F in
theorem _root_.Verif.embeddedArgs_value {n : Nat} {args : List (Val P)} {kw : List (Str × Val P)} (ha : Policy.Values L n args)
    (hk : Policy.Entries L n kw) {b as kw'} (h : embeddedArgs args kw = some (b, as, kw')) :
    L.Value n b ∧ Policy.Values L n as ∧ Policy.Entries L n kw' := by
  have hget : ∀ {k : Str} {v : Val P}, Dict.get? kw k = some v → L.Value n v := by
    intro k v h
    exact hk _ (Dict.mem_of_get? h)
  unfold embeddedArgs at h
  split at h
  · cases h
  · cases args with
    | nil =>
      simp only [Option.some.injEq, Prod.mk.injEq] at h
      obtain ⟨rfl, rfl, rfl⟩ := h
      refine ⟨?_, by simp [Policy.Values], fun a h => hk a (Dict.mem_erase h)⟩
      cases hg : Dict.get? kw (s!!"body_string") with
      | none => exact .none
      | some v => exact hget hg
    | cons a args =>
      simp only at h
      split at h
      · cases h
      · simp only [Option.some.injEq, Prod.mk.injEq] at h
        obtain ⟨rfl, rfl, rfl⟩ := h
        exact ⟨ha _ (by simp), fun v hv => ha v (by simp [hv]), hk⟩

theorem callVal {n : Nat} {f : Val P} (hf : L.Value n f) : ∀ (args : List (Val P)) (kw : List (Str × Val P)),
    Policy.Values L n args → Policy.Entries L n kw → Conforms L n L.Value (callVal E f args kw) := by
  induction hf with
  | embedded hc =>
    intro args kw ha hk
    simp only [Verif.callVal]
    cases he : embeddedArgs args kw with
    | none => exact .raise _
    | some t =>
      obtain ⟨b, as, kw'⟩ := t
      obtain ⟨h1, h2, h3⟩ := embeddedArgs_value ha hk he
      exact F.call n _ hc h1 h2 h3
  | part h1 h2 h3 ih1 ih2 ih3 =>
    intro args kw ha hk
    cases kw with
    | nil =>
      simp only [Verif.callVal]
      refine ih1 _ _ (fun v hv => ?_) h3
      rcases List.mem_append.1 hv with h | h
      · exact ha v h
      · exact h2 v h
    | cons a kw => simp only [Verif.callVal]; exact .raise _
  | none => exact fun args kw ha hk => F.py (.call .none ha hk)
  | bool b => exact fun args kw ha hk => F.py (.call (.bool b) ha hk)
  | str s => exact fun args kw ha hk => F.py (.call (.str s) ha hk)
  | py h => exact fun args kw ha hk => F.py (.call (.py h) ha hk)
  | dom h => exact fun args kw ha hk => F.py (.call (.dom h) ha hk)
  | node h => exact fun args kw ha hk => F.py (.call (.node h) ha hk)
  | hyper h => exact fun args kw ha hk => F.py (.call (.hyper h) ha hk)

theorem qualCheck {n : Nat} (q : Option Qual) {v : Val P} (h : L.Value n v) : Conforms L n L.Value (qualCheck E q v) := by
  refine (F.truthOf h).bind (fun m b hm _ => .ite (F.ret (F.laws.value h hm)) ?_)
  cases q with
  | none => exact F.ret (F.laws.value h hm)
  | some q =>
    cases q with
    | opt => exact F.ret (.str _)
    | obl => exact (F.py (.repr (F.laws.value h hm))).bind (fun _ _ _ _ => .raise _)

theorem qualified {n : Nat} (q : Option Qual) {c : Comp P X W (Val P)} (hc : Conforms L n L.Value c) :
    Conforms L n L.Value (qualified E q c) := by
  intro M hM hm
  obtain ⟨h1, h2, h3⟩ := hc M hM hm
  unfold Verif.qualified
  rcases hc : c M with ⟨r, M'⟩
  rw [hc] at h1 h2 h3
  cases r with
  | ok a =>
    obtain ⟨g1, g2, g3⟩ := F.qualCheck q (h3 a rfl) M' h1 (Nat.le_refl _)
    exact ⟨g1, Nat.le_trans h2 g2, g3⟩
  | raise e =>
    simp only [qualStep]
    split
    · refine ⟨h1, h2, fun a ha => ?_⟩
      cases ha
      exact .str _
    · exact ⟨h1, h2, fun _ hb => nomatch hb⟩
  | timeout => exact ⟨h1, h2, fun _ hb => nomatch hb⟩

theorem readName {n : Nat} (σ : StateId) (slot : Option Slot) : Conforms L n L.Value (readName σ slot : Comp P X W _) := by
  cases slot with
  | none => exact .raise _
  | some sl =>
    refine (Conforms.getSlot σ sl).bind (fun m o hm ho => ?_)
    cases o with
    | none => exact .raise _
    | some v => exact F.ret (ho v rfl)

theorem negate {n : Nat} {v : Val P} (h : L.Value n v) : Conforms L n L.Value (negate E v) := by
  cases v with
  | none => exact F.ret h
  | _ => exact F.py (.neg h)

omit F in
theorem _root_.Verif.positional_value {n : Nat} {names : List (Option Str)} {vs : List (Val P)} (h : Policy.Values L n vs) :
    Policy.Values L n (positional names vs) := by
  induction names generalizing vs with
  | nil => simp [positional, Policy.Values]
  | cons o names ih =>
    cases vs with
    | nil => cases o <;> simp [positional, Policy.Values]
    | cons v vs =>
      have h1 := ih (vs := vs) (fun w hw => h w (by simp [hw]))
      cases o with
      | none =>
        intro w hw
        rcases List.mem_cons.1 hw with rfl | hw
        · exact h _ (by simp)
        · exact h1 w hw
      | some k => exact h1

omit F in
theorem _root_.Verif.keywords_value {n : Nat} {names : List (Option Str)} {vs : List (Val P)} (h : Policy.Values L n vs) :
    Policy.Entries L n (keywords names vs) := by
  induction names generalizing vs with
  | nil => simp [keywords, Policy.Entries]
  | cons o names ih =>
    cases vs with
    | nil => cases o <;> simp [keywords, Policy.Entries]
    | cons v vs =>
      have h1 := ih (vs := vs) (fun w hw => h w (by simp [hw]))
      cases o with
      | none => exact h1
      | some k =>
        intro w hw
        rcases List.mem_cons.1 hw with rfl | hw
        · exact h v (by simp)
        · exact h1 w hw

omit F in
theorem _root_.Verif.keywords_dict {n : Nat} {names : List (Option Str)} {vs : List (Val P)} (h : Policy.Values L n vs) :
    Policy.Entries L n (Dict.update [] (keywords names vs)) := fun a ha =>
  keywords_value h a ((Dict.mem_update ha).resolve_left (by simp))

omit F in
theorem _root_.Verif.pairUp_value {n : Nat} : ∀ {vs : List (Val P)}, Policy.Values L n vs → ∀ a ∈ pairUp vs, L.Value n a.1 ∧ L.Value n a.2
  | [], _ => by simp [pairUp]
  | [_], _ => by simp [pairUp]
  | k :: v :: rest, h => by
    intro a ha
    rw [pairUp] at ha
    rcases List.mem_cons.1 ha with rfl | ha
    · exact ⟨h k (by simp), h v (by simp)⟩
    · exact pairUp_value (fun w hw => h w (by simp [hw])) a ha

set_option linter.unusedSectionVars false in
theorem cons {n : Nat} {v : Val P} {vs : List (Val P)} (h : L.Value n v) (hs : Policy.Values L n vs) : Policy.Values L n (v :: vs) := by
  intro w hw
  rcases List.mem_cons.1 hw with rfl | hw
  · exact h
  · exact hs w hw

omit F in
theorem _root_.Verif.wrapTag_value {n : Nat} (σ : StateId) {v : Val P} (hc : L.calls) (h : L.Value n v) : L.Value n (wrapTag σ v) := by
  cases v with
  | hyper h => exact .embedded hc
  | _ => exact h

mutual
theorem eval (σ : StateId) : ∀ (n : Nat) (e : Expr), e.tagsIf L.calls → Conforms L n L.Value (eval E σ e)
  | n, .root q e, h => by
    simp only [Verif.eval]; simp only [Expr.tagsIf] at h
    exact F.qualified q (eval σ n e h)
  | n, .tagUse _ slot, h => by
    simp only [Verif.eval]; simp only [Expr.tagsIf] at h
    exact (F.readName σ slot).bind (fun _ _ _ hv => F.ret (wrapTag_value σ h hv))
  | n, .varUse _ slot, h => by
    simp only [Verif.eval]
    exact F.readName σ slot
  | n, .factor atom tail q, h => by
    simp only [Verif.eval]; simp only [Expr.tagsIf] at h
    exact F.qualified q ((eval σ n atom h.1).bind (fun m v _ hv => applyTails σ m tail v h.2 hv))
  | n, .chain neg head ops es, h => by
    simp only [Verif.eval]; simp only [Expr.tagsIf] at h
    exact (eval σ n head h.1).bind (fun _ v _ hv => .ite
      ((F.negate hv).bind (fun m w _ hw => evalChain σ m ops es w h.2 hw))
      ((F.ret hv).bind (fun m w _ hw => evalChain σ m ops es w h.2 hw)))
  | n, .concat es, h => by
    simp only [Verif.eval]; simp only [Expr.tagsIf] at h
    exact (evalStrs σ n es h).bind (fun _ _ _ _ => F.ret (.str _))
  | n, .bits op head es, h => by
    simp only [Verif.eval]; simp only [Expr.tagsIf] at h
    exact (eval σ n head h.1).bind (fun m v _ hv => evalBits σ op m es v h.2 hv)
  | n, .pipeline head fs, h => by
    simp only [Verif.eval]; simp only [Expr.tagsIf] at h
    exact (eval σ n head h.1).bind (fun m v _ hv => evalPipe σ m fs v h.2 hv)
  | n, .notTest k e, h => by
    simp only [Verif.eval]; simp only [Expr.tagsIf] at h
    exact (eval σ n e h).bind (fun _ v _ hv => .ite ((F.truthOf hv).bind (fun _ _ _ _ => F.ret (.bool _))) (F.ret hv))
  | n, .andTest head es, h => by
    simp only [Verif.eval]; simp only [Expr.tagsIf] at h
    exact (eval σ n head h.1).bind (fun m v _ hv => evalAnd σ m es v h.2 hv)
  | n, .orTest head es, h => by
    simp only [Verif.eval]; simp only [Expr.tagsIf] at h
    exact (eval σ n head h.1).bind (fun m v _ hv => evalOr σ m es v h.2 hv)
  | n, .ifElse x t none, h => by
    simp only [Verif.eval]; simp only [Expr.tagsIf] at h
    exact (eval σ n t h.2.1).bind (fun _ v _ hv => (F.truthOf hv).bind
      (fun m b _ _ => .ite (eval σ m x h.1) (F.ret (.str _))))
  | n, .ifElse x t (some y), h => by
    simp only [Verif.eval]; simp only [Expr.tagsIf, Expr.tagsIfOpt] at h
    exact (eval σ n t h.2.1).bind (fun _ v _ hv => (F.truthOf hv).bind
      (fun m b _ _ => .ite (eval σ m x h.1) (eval σ m y h.2.2)))
  | n, .list es, h => by
    simp only [Verif.eval]; simp only [Expr.tagsIf] at h
    exact (evalList σ n es h).bind (fun _ _ _ hv => F.py (.mkList hv))
  | n, .tuple es, h => by
    simp only [Verif.eval]; simp only [Expr.tagsIf] at h
    exact (evalList σ n es h).bind (fun _ _ _ hv => F.py (.mkTuple hv))
  | n, .set es, h => by
    simp only [Verif.eval]; simp only [Expr.tagsIf] at h
    exact (evalList σ n es h).bind (fun _ _ _ hv => F.py (.mkSet hv))
  | n, .dict es, h => by
    simp only [Verif.eval]; simp only [Expr.tagsIf] at h
    exact (evalList σ n es h).bind (fun _ _ _ hv => F.py (.mkDict (pairUp_value hv)))
  | n, .format es, h => by
    simp only [Verif.eval]; simp only [Expr.tagsIf] at h
    exact (evalStrs σ n es h).bind (fun _ _ _ _ => F.ret (.str _))
  | n, .static s, _ => by simp only [Verif.eval]; exact F.ret (.str _)
  | n, .strLit s, _ => by simp only [Verif.eval]; exact F.ret (.str _)
  | n, .number t, _ => by simp only [Verif.eval]; exact .pure (fun _ _ => F.laws.value (F.ops.number t) (Nat.zero_le _))
  | n, .boolean b, _ => by simp only [Verif.eval]; exact F.ret (.bool _)
  | n, .noneLit, _ => by simp only [Verif.eval]; exact F.ret .none
  | n, .sliceNone, _ => by simp only [Verif.eval]; exact F.ret .none
theorem evalList (σ : StateId) : ∀ (n : Nat) (es : List Expr), Expr.tagsIfAll L.calls es →
    Conforms L n (Policy.Values L) (evalList E σ es)
  | n, [], _ => by simp only [Verif.evalList]; exact .pure (fun _ _ => by simp [Policy.Values])
  | n, e :: es, h => by
    simp only [Verif.evalList]; simp only [Expr.tagsIfAll] at h
    exact (eval σ n e h.1).bind (fun m v _ hv => (evalList σ m es h.2).bind
      (fun _ vs hk hs => .pure (fun _ hj => F.cons (F.laws.value hv (Nat.le_trans hk hj)) (F.laws.values hs hj))))
theorem evalChain (σ : StateId) : ∀ (n : Nat) (ops : List Str) (es : List Expr) (v : Val P),
    Expr.tagsIfAll L.calls es → L.Value n v → Conforms L n L.Value (evalChain E σ ops es v)
  | n, [], es, v, _, hv => by simp only [Verif.evalChain]; exact F.ret hv
  | n, op :: ops, [], v, _, hv => by simp only [Verif.evalChain]; exact F.ret hv
  | n, op :: ops, e :: es, v, h, hv => by
    simp only [Verif.evalChain]; simp only [Expr.tagsIfAll] at h
    exact (eval σ n e h.1).bind (fun _ w hm hw => (F.binOp op (F.laws.value hv hm) hw).bind
      (fun m r _ hr => evalChain σ m ops es r h.2 hr))
theorem evalStrs (σ : StateId) : ∀ (n : Nat) (es : List Expr), Expr.tagsIfAll L.calls es →
    Conforms L n (fun _ _ => True) (evalStrs E σ es)
  | n, [], _ => by simp only [Verif.evalStrs]; exact .pure (fun _ _ => trivial)
  | n, e :: es, h => by
    simp only [Verif.evalStrs]; simp only [Expr.tagsIfAll] at h
    exact (eval σ n e h.1).bind (fun _ v _ hv => (F.STR hv).bind (fun m s _ _ => (evalStrs σ m es h.2).bind
      (fun _ _ _ _ => .pure (fun _ _ => trivial))))
theorem evalBits (σ : StateId) (op : Str) : ∀ (n : Nat) (es : List Expr) (v : Val P),
    Expr.tagsIfAll L.calls es → L.Value n v → Conforms L n L.Value (evalBits E σ op es v)
  | n, [], v, _, hv => by simp only [Verif.evalBits]; exact F.ret hv
  | n, e :: es, v, h, hv => by
    simp only [Verif.evalBits]; simp only [Expr.tagsIfAll] at h
    exact (eval σ n e h.1).bind (fun _ w hm hw => (F.binOp op (F.laws.value hv hm) hw).bind
      (fun m r _ hr => evalBits σ op m es r h.2 hr))
theorem evalPipe (σ : StateId) : ∀ (n : Nat) (es : List Expr) (v : Val P), Expr.tagsIfAll L.calls es →
    L.Value n v → Conforms L n L.Value (evalPipe E σ es v)
  | n, [], v, _, hv => by simp only [Verif.evalPipe]; exact F.ret hv
  | n, e :: es, v, h, hv => by
    simp only [Verif.evalPipe]; simp only [Expr.tagsIfAll] at h
    exact (eval σ n e h.1).bind (fun _ w hm hw => (F.callVal hw [v] []
      (F.cons (F.laws.value hv hm) (by simp [Policy.Values])) (by simp [Policy.Entries])).bind
      (fun m r _ hr => evalPipe σ m es r h.2 hr))
theorem evalAnd (σ : StateId) : ∀ (n : Nat) (es : List Expr) (v : Val P), Expr.tagsIfAll L.calls es →
    L.Value n v → Conforms L n L.Value (evalAnd E σ es v)
  | n, [], v, _, hv => by simp only [Verif.evalAnd]; exact F.ret hv
  | n, e :: es, v, h, hv => by
    simp only [Verif.evalAnd]; simp only [Expr.tagsIfAll] at h
    exact (F.truthOf hv).bind (fun _ b hm _ => .ite ((F.truthOf (F.laws.value hv hm)).bind (fun m2 b hm2 _ => .ite
      ((eval σ m2 e h.1).bind (fun m3 w _ hw => evalAnd σ m3 es w h.2 hw))
      (evalAnd σ m2 es v h.2 (F.laws.value hv (Nat.le_trans hm hm2))))) (F.ret (F.laws.value hv hm)))
theorem evalOr (σ : StateId) : ∀ (n : Nat) (es : List Expr) (v : Val P), Expr.tagsIfAll L.calls es →
    L.Value n v → Conforms L n L.Value (evalOr E σ es v)
  | n, [], v, _, hv => by simp only [Verif.evalOr]; exact F.ret hv
  | n, e :: es, v, h, hv => by
    simp only [Verif.evalOr]; simp only [Expr.tagsIfAll] at h
    exact (F.truthOf hv).bind (fun _ b hm _ => .ite (F.ret (F.laws.value hv hm))
      ((F.truthOf (F.laws.value hv hm)).bind (fun m2 b hm2 _ => .ite
      (evalOr σ m2 es v h.2 (F.laws.value hv (Nat.le_trans hm hm2)))
      ((eval σ m2 e h.1).bind (fun m3 w _ hw => evalOr σ m3 es w h.2 hw)))))
theorem applyTails (σ : StateId) : ∀ (n : Nat) (ts : List Tail) (v : Val P), Tail.tagsIfAll L.calls ts →
    L.Value n v → Conforms L n L.Value (applyTails E σ ts v)
  | n, [], v, _, hv => by simp only [Verif.applyTails]; exact F.ret hv
  | n, t :: ts, v, h, hv => by
    simp only [Verif.applyTails]; simp only [Tail.tagsIfAll] at h
    exact (applyTail σ n t v h.1 hv).bind (fun m r _ hr => applyTails σ m ts r h.2 hr)
theorem applyTail (σ : StateId) : ∀ (n : Nat) (t : Tail) (v : Val P), t.tagsIf L.calls →
    L.Value n v → Conforms L n L.Value (applyTail E σ t v)
  | n, .call names args, f, h, hv => by
    simp only [Verif.applyTail]; simp only [Tail.tagsIf] at h
    exact (evalList σ n args h).bind (fun _ vs hm hs => F.callVal (F.laws.value hv hm) _ _ (positional_value hs) (keywords_dict hs))
  | n, .partialCall names args, f, h, hv => by
    simp only [Verif.applyTail]; simp only [Tail.tagsIf] at h
    exact .ite (F.ret hv) ((evalList σ n args h).bind (fun _ vs hm hs =>
      F.ret (.part (F.laws.value hv hm) (positional_value hs) (keywords_dict hs))))
  | n, .index es, obj, h, hv => by
    simp only [Verif.applyTail]; simp only [Tail.tagsIf] at h
    refine (evalList σ n es h).bind (fun _ vs hm hs => ?_)
    split
    · exact F.py (.getitem (F.laws.value hv hm) (hs _ (by simp)))
    · exact F.py (.slice (F.laws.value hv hm) hs)
  | n, .member name, obj, _, hv => by simp only [Verif.applyTail]; exact F.py (.getattr hv)
end

end Spec.Policy.Fair
end
end Verif
