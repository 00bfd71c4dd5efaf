import Verif.Spec.Comments
import Verif.Model.Analyse
import Verif.Lemmas.Comp

/-! Analysis and translation of scripts without comments. -/

set_option linter.unusedSectionVars false

namespace Verif
open Py

section
variable {P I X W α β γ δ : Type}

/-- The same error, or a result that is changed by `φ`, in the same context. -/
def Along (φ : α → β) (r : Except (AErr I) (α × Ctx)) (r' : Except (AErr I) (β × Ctx)) : Prop := r' = r.map (fun x => (φ x.1, x.2))

theorem Along.pure {φ : α → β} {a : α} {b : β} {c : Ctx} (h : b = φ a) : Along φ (Pure.pure (a, c) : Except (AErr I) _) (Pure.pure (b, c)) := by
  rw [h]; rfl

theorem Along.bind {φ : α → β} {ψ : γ → δ} {r : Except (AErr I) (α × Ctx)} {r' : Except (AErr I) (β × Ctx)}
    {k : α × Ctx → Except (AErr I) (γ × Ctx)} {k' : β × Ctx → Except (AErr I) (δ × Ctx)} (h : Along φ r r')
    (hk : ∀ a c, Along ψ (k (a, c)) (k' (φ a, c))) : Along ψ (r >>= k) (r' >>= k') := by
  unfold Along at h
  subst h
  cases r with
  | error e => rfl
  | ok x => exact hk x.1 x.2

theorem Along.bind_post {φ : α → β} {ψ : γ → δ} {r : Except (AErr I) (α × Ctx)} {r' : Except (AErr I) (β × Ctx)}
    {k : α × Ctx → Except (AErr I) (γ × Ctx)} {k' : β × Ctx → Except (AErr I) (δ × Ctx)} (h : Along φ r r')
    (hk : ∀ a c, r = .ok (a, c) → Along ψ (k (a, c)) (k' (φ a, c))) : Along ψ (r >>= k) (r' >>= k') := by
  unfold Along at h
  subst h
  cases r with
  | error e => rfl
  | ok x => exact hk x.1 x.2 rfl

theorem Along.first {ψ : γ → δ} {r : Except (AErr I) α} {k : α → Except (AErr I) (γ × Ctx)} {k' : α → Except (AErr I) (δ × Ctx)}
    (hk : ∀ a, Along ψ (k a) (k' a)) : Along ψ (r >>= k) (r >>= k') := by
  cases r with
  | error e => rfl
  | ok x => exact hk x

theorem Along.same {φ : α → α} (h : ∀ a, φ a = a) (r : Except (AErr I) (α × Ctx)) : Along φ r r := by
  cases r with
  | error e => rfl
  | ok x => show _ = Except.ok (φ x.1, x.2); rw [h]

/-- Is it a comment? -/
def Stmt.isComment : Stmt P → Bool
  | .comment => true
  | _ => false

theorem Stmt.remark_xblock (m : Str) (mo : Option Modifier) (b : Stmt P) : (Stmt.xblock m mo b).remark = if b.isComment then some m else none := by
  cases b <;> rfl

theorem Stmt.remark_cases (s : Stmt P) : (∃ m mo, s = .xblock m mo .comment) ∨ s.remark = none := by
  cases s with
  | xblock m mo b =>
    cases b <;> first | exact .inl ⟨_, _, rfl⟩ | exact .inr rfl
  | _ => exact .inr rfl

theorem bind_shape {r : Except (AErr I) α} {k : α → Except (AErr I) (Stmt P × Ctx)} {Q : Stmt P → Prop} (h : ∀ a s c, k a = .ok (s, c) → Q s)
    {s : Stmt P} {c : Ctx} (e : (r >>= k) = .ok (s, c)) : Q s := by
  cases r with
  | error e => cases e
  | ok x => exact h x s c e

theorem pure_shape {Q : Stmt P → Prop} {t : Stmt P} {c1 : Ctx} (h : Q t) {s : Stmt P} {c : Ctx}
    (e : (Pure.pure (t, c1) : Except (AErr I) (Stmt P × Ctx)) = .ok (s, c)) : Q s := by
  cases e; exact h

/-- Analysis does not make comments, or remove them. -/
theorem analyse_isComment {src : Source P I} (s : Stmt P) {c c' : Ctx} {s' : Stmt P} (h : analyse src s c = .ok (s', c')) : s'.isComment = s.isComment := by
  cases s with
  | imports context path items =>
    cases context with
    | true =>
      simp only [analyse] at h
      split at h
      · exact bind_shape (Q := fun s => s.isComment = false) (fun _ _ _ e => pure_shape (Q := fun s => s.isComment = false) rfl e) h
      · cases h
    | false =>
      simp only [analyse] at h
      split at h
      · cases h
      · exact bind_shape (Q := fun s => s.isComment = false) (fun _ _ _ e => pure_shape (Q := fun s => s.isComment = false) rfl e) h
  | defn id name slot ba as b =>
    simp only [analyse] at h
    split at h
    · cases h
    · exact bind_shape (Q := fun s => s.isComment = false) (fun _ _ _ e => bind_shape (Q := fun s => s.isComment = false) (fun _ _ _ e =>
        bind_shape (Q := fun s => s.isComment = false) (fun _ _ _ e => bind_shape (Q := fun s => s.isComment = false) (fun _ _ _ e =>
        bind_shape (Q := fun s => s.isComment = false) (fun _ _ _ e => bind_shape (Q := fun s => s.isComment = false) (fun _ _ _ e =>
          pure_shape (Q := fun s => s.isComment = false) rfl e) e) e) e) e) e) h
  | comment => simp only [analyse] at h; cases h; rfl
  | _ =>
    simp only [analyse] at h
    first
    | (cases h; rfl)
    | exact bind_shape (Q := fun s => s.isComment = false) (fun _ _ _ e => pure_shape (Q := fun s => s.isComment = false) rfl e) h
    | exact bind_shape (Q := fun s => s.isComment = false) (fun _ _ _ e => bind_shape (Q := fun s => s.isComment = false) (fun _ _ _ e =>
        pure_shape (Q := fun s => s.isComment = false) rfl e) e) h
    | exact bind_shape (Q := fun s => s.isComment = false) (fun _ _ _ e => bind_shape (Q := fun s => s.isComment = false) (fun _ _ _ e =>
        bind_shape (Q := fun s => s.isComment = false) (fun _ _ _ e => pure_shape (Q := fun s => s.isComment = false) rfl e) e) e) h

theorem analyse_remark {src : Source P I} (s : Stmt P) {c c' : Ctx} {s' : Stmt P} (h : analyse src s c = .ok (s', c')) : s'.remark = s.remark := by
  cases s with
  | xblock m mo b =>
    simp only [analyse] at h
    cases hb : analyse src b (leaveProlog b c) with
    | error e => rw [hb] at h; cases h
    | ok x =>
      rw [hb] at h
      cases h
      rw [Stmt.remark_xblock, Stmt.remark_xblock, analyse_isComment b hb]
  | imports context path items =>
    cases context with
    | true =>
      simp only [analyse] at h
      split at h
      · exact bind_shape (Q := fun s => s.remark = none) (fun _ _ _ e => pure_shape (Q := fun s => s.remark = none) rfl e) h
      · cases h
    | false =>
      simp only [analyse] at h
      split at h
      · cases h
      · exact bind_shape (Q := fun s => s.remark = none) (fun _ _ _ e => pure_shape (Q := fun s => s.remark = none) rfl e) h
  | defn id name slot ba as b =>
    simp only [analyse] at h
    split at h
    · cases h
    · exact bind_shape (Q := fun s => s.remark = none) (fun _ _ _ e => bind_shape (Q := fun s => s.remark = none) (fun _ _ _ e =>
        bind_shape (Q := fun s => s.remark = none) (fun _ _ _ e => bind_shape (Q := fun s => s.remark = none) (fun _ _ _ e =>
        bind_shape (Q := fun s => s.remark = none) (fun _ _ _ e => bind_shape (Q := fun s => s.remark = none) (fun _ _ _ e =>
          pure_shape (Q := fun s => s.remark = none) rfl e) e) e) e) e) e) h
  | _ =>
    simp only [analyse] at h
    first
    | (cases h; rfl)
    | exact bind_shape (Q := fun s => s.remark = none) (fun _ _ _ e => pure_shape (Q := fun s => s.remark = none) rfl e) h
    | exact bind_shape (Q := fun s => s.remark = none) (fun _ _ _ e => bind_shape (Q := fun s => s.remark = none) (fun _ _ _ e =>
        pure_shape (Q := fun s => s.remark = none) rfl e) e) h
    | exact bind_shape (Q := fun s => s.remark = none) (fun _ _ _ e => bind_shape (Q := fun s => s.remark = none) (fun _ _ _ e =>
        bind_shape (Q := fun s => s.remark = none) (fun _ _ _ e => pure_shape (Q := fun s => s.remark = none) rfl e) e) e) h

theorem leaveProlog_plain (b : Stmt P) (c : Ctx) : leaveProlog b.plain c = leaveProlog b c := by
  cases b <;> simp only [Stmt.plain, leaveProlog]

theorem analyseAll_blank (src : Source P I) (m : Str) (ss : List (Stmt P)) (c : Ctx) :
    analyseAll src (blankLines m ++ ss) c = (analyseAll src ss c).map (fun x => (blankLines m ++ x.1, x.2)) := by
  unfold blankLines
  split
  · simp only [List.nil_append]
    cases analyseAll src ss c <;> rfl
  · simp only [List.cons_append, List.nil_append, analyseAll, analyse]
    show (analyseAll src ss c >>= _) = _
    cases analyseAll src ss c <;> rfl

section
variable {src : Source P I}

mutual
theorem analyse_plain : ∀ (s : Stmt P) (c : Ctx), Along Stmt.plain (analyse src s c) (analyse src s.plain c)
  | .xblock m mo b, c => by
    simp only [Stmt.plain, analyse]
    rw [leaveProlog_plain]
    exact (analyse_plain b _).bind (fun b' c1 => .pure (by simp only [Stmt.plain]))
  | .struct tags b, c => by
    simp only [Stmt.plain, analyse]
    exact .first (fun tags' => (analyse_plain b _).bind (fun b' c1 => .pure (by simp only [Stmt.plain])))
  | .defn id name slot ba as b, c => by
    simp only [Stmt.plain, analyse]
    split
    · exact rfl
    · exact .first (fun _ => .first (fun _ => .first (fun _ => .first (fun _ =>
        (analyse_plain b _).bind (fun b' c1 => .first (fun _ => .pure (by simp only [Stmt.plain])))))))
  | .tryBlock bs, c => by
    simp only [Stmt.plain, analyse]
    exact (analyseBranches_plain bs _).bind (fun b' c1 => .pure (by simp only [Stmt.plain]))
  | .ifBlock cs els, c => by
    simp only [Stmt.plain, analyse]
    exact (analyseClauses_plain cs _).bind (fun b' c1 => (analyseElse_plain els _).bind (fun _ _ => .pure (by simp only [Stmt.plain])))
  | .elseClause b, c => by
    simp only [Stmt.plain, analyse]
    exact (analyseOpt_plain b _).bind (fun b' c1 => .pure (by simp only [Stmt.plain]))
  | .whileBlock t b els, c => by
    simp only [Stmt.plain, analyse]
    exact .first (fun _ => (analyseOpt_plain b _).bind (fun b' c1 => (analyseElse_plain els _).bind (fun _ _ => .pure (by simp only [Stmt.plain]))))
  | .forBlock t e rest, c => by
    simp only [Stmt.plain, analyse]
    exact .first (fun _ => .first (fun _ => (analyseFirst_plain rest _).bind (fun b' c1 => .pure (by simp only [Stmt.plain]))))
  | .body ss, c => by
    simp only [Stmt.plain, analyse]
    exact (analyseAll_plain ss _).bind (fun b' c1 => .pure (by simp only [Stmt.plain]))
  | .static s, c => by simp only [Stmt.plain, analyse]; exact .pure (by simp only [Stmt.plain])
  | .indent s, c => by simp only [Stmt.plain, analyse]; exact .pure (by simp only [Stmt.plain])
  | .dedent s, c => by simp only [Stmt.plain, analyse]; exact .pure (by simp only [Stmt.plain])
  | .comment, c => by simp only [Stmt.plain, analyse]; exact .pure (by simp only [Stmt.plain])
  | .pass, c => by simp only [Stmt.plain, analyse]; exact .pure (by simp only [Stmt.plain])
  | .line l, c => by simp only [Stmt.plain, analyse]; exact .first (fun _ => .pure (by simp only [Stmt.plain]))
  | .text lead l, c => by simp only [Stmt.plain, analyse]; exact .first (fun _ => .pure (by simp only [Stmt.plain]))
  | .embed l, c => by simp only [Stmt.plain, analyse]; exact .first (fun _ => .pure (by simp only [Stmt.plain]))
  | .exprBlock l, c => by simp only [Stmt.plain, analyse]; exact .first (fun _ => .pure (by simp only [Stmt.plain]))
  | .assign t op e, c => by simp only [Stmt.plain, analyse]; exact .first (fun _ => .first (fun _ => .pure (by simp only [Stmt.plain])))
  | .imports true path items, c => by
    simp only [Stmt.plain, analyse]
    split
    · exact .first (fun _ => .pure (by simp only [Stmt.plain]))
    · exact rfl
  | .imports false path items, c => by
    simp only [Stmt.plain, analyse]
    split
    · exact rfl
    · exact .first (fun _ => .pure (by simp only [Stmt.plain]))
theorem analyseAll_plain : ∀ (ss : List (Stmt P)) (c : Ctx), Along Stmt.plainAll (analyseAll src ss c) (analyseAll src (Stmt.plainAll ss) c)
  | [], c => by simp only [Stmt.plainAll, analyseAll]; exact .pure (by simp only [Stmt.plainAll])
  | s :: ss, c => by
    rcases s.remark_cases with ⟨m, mo, rfl⟩ | h
    · simp only [Stmt.plainAll, Stmt.remark]
      rw [analyseAll_blank]
      have ih := analyseAll_plain ss c
      unfold Along at ih ⊢
      rw [ih]
      simp only [analyseAll, analyse, leaveProlog]
      show _ = Except.map _ (analyseAll src ss c >>= _)
      cases analyseAll src ss c with
      | error e => rfl
      | ok x =>
        show Except.ok _ = Except.ok _
        simp only [Stmt.plainAll, Stmt.remark]
    · simp only [Stmt.plainAll, h, analyseAll]
      refine (analyse_plain s c).bind_post (fun s' c1 e => (analyseAll_plain ss c1).bind (fun ss' c2 => .pure ?_))
      have := analyse_remark s e
      simp only [Stmt.plainAll, this, h]
theorem analyseBranches_plain : ∀ (ss : List (Stmt P)) (c : Ctx), Along Stmt.plainEach (analyseBranches src ss c) (analyseBranches src (Stmt.plainEach ss) c)
  | [], c => by simp only [Stmt.plainEach, analyseBranches]; exact .pure (by simp only [Stmt.plainEach])
  | s :: ss, c => by
    simp only [Stmt.plainEach, analyseBranches]
    exact (analyse_plain s c).bind (fun s' c1 => (analyseBranches_plain ss _).bind (fun ss' c2 => .pure (by simp only [Stmt.plainEach])))
theorem analyseClauses_plain : ∀ (cs : List (Expr × Option (Stmt P))) (c : Ctx),
    Along Stmt.plainClauses (analyseClauses src cs c) (analyseClauses src (Stmt.plainClauses cs) c)
  | [], c => by simp only [Stmt.plainClauses, analyseClauses]; exact .pure (by simp only [Stmt.plainClauses])
  | s :: ss, c => by
    simp only [Stmt.plainClauses, analyseClauses]
    exact (analyseClause_plain s c).bind (fun s' c1 => (analyseClauses_plain ss _).bind (fun ss' c2 => .pure (by simp only [Stmt.plainClauses])))
theorem analyseClause_plain : ∀ (cl : Expr × Option (Stmt P)) (c : Ctx), Along Stmt.plainClause (analyseClause src cl c) (analyseClause src (Stmt.plainClause cl) c)
  | (e, b), c => by
    simp only [Stmt.plainClause, analyseClause]
    exact .first (fun _ => (analyseOpt_plain b c).bind (fun _ _ => .pure (by simp only [Stmt.plainClause])))
theorem analyseElse_plain : ∀ (o : Option (Stmt P)) (c : Ctx), Along Stmt.plainOpt (analyseElse src o c) (analyseElse src (Stmt.plainOpt o) c)
  | none, c => by simp only [Stmt.plainOpt, analyseElse]; exact .pure (by simp only [Stmt.plainOpt])
  | some s, c => by
    simp only [Stmt.plainOpt, analyseElse]
    exact (analyse_plain s c).bind (fun _ _ => .pure (by simp only [Stmt.plainOpt]))
theorem analyseOpt_plain : ∀ (o : Option (Stmt P)) (c : Ctx), Along Stmt.plainOpt (analyseOpt src o c) (analyseOpt src (Stmt.plainOpt o) c)
  | none, c => by simp only [Stmt.plainOpt, analyseOpt]; exact .pure (by simp only [Stmt.plainOpt])
  | some s, c => by
    simp only [Stmt.plainOpt, analyseOpt]
    exact (analyse_plain s c).bind (fun _ _ => .pure (by simp only [Stmt.plainOpt]))
theorem analyseFirst_plain : ∀ (ss : List (Stmt P)) (c : Ctx), Along Stmt.plainEach (analyseFirst src ss c) (analyseFirst src (Stmt.plainEach ss) c)
  | [], c => by simp only [Stmt.plainEach, analyseFirst]; exact .pure (by simp only [Stmt.plainEach])
  | s :: ss, c => by
    simp only [Stmt.plainEach, analyseFirst]
    exact (analyse_plain s c).bind (fun s' c1 => .pure (by simp only [Stmt.plainEach]))
end
end

/-! ### Translation -/

section
variable (E : Env P X W)

theorem plain_isElse (s : Stmt P) : s.plain.isElse = s.isElse := by
  cases s <;> simp only [Stmt.plain, Stmt.isElse]

theorem plainEach_map (ss : List (Stmt P)) : Stmt.plainEach ss = ss.map Stmt.plain := by
  induction ss with
  | nil => simp only [Stmt.plainEach, List.map_nil]
  | cons s ss ih => simp only [Stmt.plainEach, List.map_cons, ih]

theorem lastElse_plain (ss : List (Stmt P)) (cs : List (Comp P X W (List Ref))) : lastElse (Stmt.plainEach ss) cs = lastElse ss cs := by
  unfold lastElse
  rw [plainEach_map, List.getLast?_map]
  cases ss.getLast? with
  | none => rfl
  | some s => simp [plain_isElse]

theorem translAll_blank (σ : StateId) (m : Str) (ss : List (Stmt P)) :
    translAll E σ (blankLines m ++ ss) = (do let a ← translStatic m; let b ← translAll E σ ss; return a ++ b) := by
  unfold blankLines
  cases m with
  | nil =>
    rw [if_pos rfl, List.nil_append]
    show _ = translAll E σ ss >>= fun b => Pure.pure ([] ++ b)
    simp only [List.nil_append]
    exact (Comp.bind_pure _).symm
  | cons ch m =>
    rw [if_neg (by simp)]
    simp only [List.cons_append, List.nil_append, translAll, transl, translStatic, Comp.bind_assoc, Comp.pure_bind]
    rfl

mutual
theorem transl_plain (σ : StateId) : ∀ s : Stmt P, transl E σ s.plain = transl E σ s
  | .xblock m mo b => by simp only [Stmt.plain, transl]; rw [transl_plain σ b]
  | .struct tags b => by simp only [Stmt.plain, transl]; rw [transl_plain σ b]
  | .defn id name slot ba as b => by simp only [Stmt.plain, transl]
  | .tryBlock bs => by simp only [Stmt.plain, transl]; rw [translEach_plain σ bs]
  | .ifBlock cs els => by simp only [Stmt.plain, transl]; rw [translIf_plain σ cs, translOpt_plain σ els]
  | .elseClause b => by simp only [Stmt.plain, transl]; rw [translOpt_plain σ b]
  | .whileBlock t b els => by simp only [Stmt.plain, transl]; rw [translOpt_plain σ b, translOpt_plain σ els]
  | .forBlock t e rest => by simp only [Stmt.plain, transl]; rw [translEach_plain σ rest, lastElse_plain]
  | .body ss => by simp only [Stmt.plain, transl]; rw [translAll_plain σ ss]
  | .static s => by simp only [Stmt.plain]
  | .indent s => by simp only [Stmt.plain]
  | .dedent s => by simp only [Stmt.plain]
  | .comment => by simp only [Stmt.plain]
  | .pass => by simp only [Stmt.plain]
  | .line l => by simp only [Stmt.plain]
  | .text lead l => by simp only [Stmt.plain]
  | .embed l => by simp only [Stmt.plain]
  | .exprBlock l => by simp only [Stmt.plain]
  | .assign t op e => by simp only [Stmt.plain]
  | .imports b path items => by simp only [Stmt.plain]
theorem translAll_plain (σ : StateId) : ∀ ss : List (Stmt P), translAll E σ (Stmt.plainAll ss) = translAll E σ ss
  | [] => by simp only [Stmt.plainAll]
  | s :: ss => by
    rcases s.remark_cases with ⟨m, mo, rfl⟩ | h
    · simp only [Stmt.plainAll, Stmt.remark]
      rw [translAll_blank, translAll_plain σ ss]
      simp only [translAll, transl, finishBlock, Comp.bind_assoc, Comp.pure_bind, nodesOf]
    · simp only [Stmt.plainAll, h, translAll]
      rw [transl_plain σ s, translAll_plain σ ss]
theorem translEach_plain (σ : StateId) : ∀ ss : List (Stmt P), translEach E σ (Stmt.plainEach ss) = translEach E σ ss
  | [] => by simp only [Stmt.plainEach]
  | s :: ss => by simp only [Stmt.plainEach, translEach]; rw [transl_plain σ s, translEach_plain σ ss]
theorem translIf_plain (σ : StateId) : ∀ (cs : List (Expr × Option (Stmt P))) (els : Option (Comp P X W (List Ref))),
    translIf E σ (Stmt.plainClauses cs) els = translIf E σ cs els
  | [], els => by simp only [Stmt.plainClauses]
  | (e, b) :: cs, els => by
    simp only [Stmt.plainClauses, Stmt.plainClause, translIf, translBranch]
    rw [translOpt_plain σ b, translIf_plain σ cs els]
theorem translOpt_plain (σ : StateId) : ∀ o : Option (Stmt P), translOpt E σ (Stmt.plainOpt o) = translOpt E σ o
  | none => by simp only [Stmt.plainOpt]
  | some s => by simp only [Stmt.plainOpt, translOpt]; rw [transl_plain σ s]
end

end

theorem expandDef_plain (E : Env P X W) (id : DefId) (d : DefInfo P) (b : Val P) (vs : List (Val P)) (kw : Dict Str (Val P)) (σ : StateId) :
    expandDef E id d.plain b vs kw σ = expandDef E id d b vs kw σ := by
  unfold expandDef
  rw [show d.plain.body = d.body.plain from rfl, transl_plain]
  rfl

theorem expandHyper_plain (E : Env P X W) (Γ : DefId → DefInfo P) : ∀ (h : HVal) (b : Val P) (vs : List (Val P)) (kw : Dict Str (Val P)) (σ : StateId),
    expandHyper E (fun id => (Γ id).plain) h b vs kw σ = expandHyper E Γ h b vs kw σ
  | .imported h st, b, vs, kw, _ => by simp only [expandHyper]; exact expandHyper_plain E Γ h b vs kw st
  | .defn id, b, vs, kw, σ => by simp only [expandHyper]; exact expandDef_plain E id _ b vs kw σ

theorem envAt_plain (ops : PyOps P X W) (Γ : DefId → DefInfo P) (n : Nat) : envAt ops (fun id => (Γ id).plain) n = envAt ops Γ n := by
  induction n with
  | zero => rfl
  | succ n ih =>
    simp only [envAt]
    rw [ih]
    congr 1
    funext h b vs kw σ
    exact expandHyper_plain _ Γ h b vs kw σ

/-! ### Definitions, and that nothing is left -/

theorem defs_blankLines (m : Str) : Stmt.defsAll (blankLines m : List (Stmt P)) = [] := by
  unfold blankLines
  split <;> simp [Stmt.defsAll, Stmt.defs]

theorem defsAll_both (a b : List (Stmt P)) : Stmt.defsAll (a ++ b) = Stmt.defsAll a ++ Stmt.defsAll b := by
  induction a with
  | nil => simp [Stmt.defsAll]
  | cons s ss ih => simp [Stmt.defsAll, ih]

mutual
theorem Stmt.defs_plain : ∀ s : Stmt P, s.plain.defs = s.defs.map (fun d => (d.1, d.2.plain))
  | .xblock _ _ b => by simp only [Stmt.plain, Stmt.defs]; exact b.defs_plain
  | .struct _ b => by simp only [Stmt.plain, Stmt.defs]; exact b.defs_plain
  | .defn _ _ _ _ _ b => by simp only [Stmt.plain, Stmt.defs, List.map_cons]; rw [b.defs_plain]; rfl
  | .tryBlock bs => by simp only [Stmt.plain, Stmt.defs]; exact Stmt.defsEach_plain bs
  | .ifBlock cs els => by simp only [Stmt.plain, Stmt.defs, List.map_append]; rw [Stmt.defsClauses_plain cs, Stmt.defsOpt_plain els]
  | .elseClause b => by simp only [Stmt.plain, Stmt.defs]; exact Stmt.defsOpt_plain b
  | .whileBlock _ b els => by simp only [Stmt.plain, Stmt.defs, List.map_append]; rw [Stmt.defsOpt_plain b, Stmt.defsOpt_plain els]
  | .forBlock _ _ rest => by simp only [Stmt.plain, Stmt.defs]; exact Stmt.defsEach_plain rest
  | .body ss => by simp only [Stmt.plain, Stmt.defs]; exact Stmt.defsAll_plain ss
  | .indent _ => by simp only [Stmt.plain, Stmt.defs, List.map_nil]
  | .dedent _ => by simp only [Stmt.plain, Stmt.defs, List.map_nil]
  | .imports _ _ _ => by simp only [Stmt.plain, Stmt.defs, List.map_nil]
  | .static _ => by simp only [Stmt.plain, Stmt.defs, List.map_nil]
  | .line _ => by simp only [Stmt.plain, Stmt.defs, List.map_nil]
  | .text _ _ => by simp only [Stmt.plain, Stmt.defs, List.map_nil]
  | .comment => by simp only [Stmt.plain, Stmt.defs, List.map_nil]
  | .embed _ => by simp only [Stmt.plain, Stmt.defs, List.map_nil]
  | .exprBlock _ => by simp only [Stmt.plain, Stmt.defs, List.map_nil]
  | .assign _ _ _ => by simp only [Stmt.plain, Stmt.defs, List.map_nil]
  | .pass => by simp only [Stmt.plain, Stmt.defs, List.map_nil]
theorem Stmt.defsAll_plain : ∀ ss : List (Stmt P), Stmt.defsAll (Stmt.plainAll ss) = (Stmt.defsAll ss).map (fun d => (d.1, d.2.plain))
  | [] => by simp only [Stmt.plainAll, Stmt.defsAll, List.map_nil]
  | s :: ss => by
    rcases s.remark_cases with ⟨m, mo, rfl⟩ | h
    · simp only [Stmt.plainAll, Stmt.remark, Stmt.defsAll, Stmt.defs, List.nil_append]
      rw [defsAll_both, defs_blankLines, List.nil_append]
      exact Stmt.defsAll_plain ss
    · simp only [Stmt.plainAll, h, Stmt.defsAll, List.map_append]
      rw [s.defs_plain, Stmt.defsAll_plain ss]
theorem Stmt.defsEach_plain : ∀ ss : List (Stmt P), Stmt.defsAll (Stmt.plainEach ss) = (Stmt.defsAll ss).map (fun d => (d.1, d.2.plain))
  | [] => by simp only [Stmt.plainEach, Stmt.defsAll, List.map_nil]
  | s :: ss => by simp only [Stmt.plainEach, Stmt.defsAll, List.map_append]; rw [s.defs_plain, Stmt.defsEach_plain ss]
theorem Stmt.defsOpt_plain : ∀ o : Option (Stmt P), Stmt.defsOpt (Stmt.plainOpt o) = (Stmt.defsOpt o).map (fun d => (d.1, d.2.plain))
  | none => by simp only [Stmt.plainOpt, Stmt.defsOpt, List.map_nil]
  | some s => by simp only [Stmt.plainOpt, Stmt.defsOpt]; exact s.defs_plain
theorem Stmt.defsClauses_plain : ∀ cs : List (Expr × Option (Stmt P)),
    Stmt.defsClauses (Stmt.plainClauses cs) = (Stmt.defsClauses cs).map (fun d => (d.1, d.2.plain))
  | [] => by simp only [Stmt.plainClauses, Stmt.defsClauses, List.map_nil]
  | (_, b) :: cs => by
    simp only [Stmt.plainClauses, Stmt.plainClause, Stmt.defsClauses, Stmt.defsClause, List.map_append]
    rw [Stmt.defsOpt_plain b, Stmt.defsClauses_plain cs]
end

theorem plain_isComment (s : Stmt P) : s.plain.isComment = s.isComment := by
  cases s <;> simp only [Stmt.plain, Stmt.isComment]

theorem plain_remark (s : Stmt P) : s.plain.remark = s.remark := by
  cases s with
  | xblock m mo b => simp only [Stmt.plain]; rw [Stmt.remark_xblock, Stmt.remark_xblock, plain_isComment]
  | _ => simp only [Stmt.plain, Stmt.remark]

theorem uncommentedAll_blank (m : Str) {ss : List (Stmt P)} (h : Stmt.uncommentedAll ss) : Stmt.uncommentedAll (blankLines m ++ ss) := by
  unfold blankLines
  split
  · exact h
  · simp only [List.cons_append, List.nil_append, Stmt.uncommentedAll, Stmt.uncommented, Stmt.remark, true_and]
    exact h

mutual
theorem Stmt.plain_uncommented : ∀ s : Stmt P, s.plain.uncommented
  | .xblock _ _ b => by simp only [Stmt.plain, Stmt.uncommented]; exact b.plain_uncommented
  | .struct _ b => by simp only [Stmt.plain, Stmt.uncommented]; exact b.plain_uncommented
  | .defn _ _ _ _ _ b => by simp only [Stmt.plain, Stmt.uncommented]; exact b.plain_uncommented
  | .tryBlock bs => by simp only [Stmt.plain, Stmt.uncommented]; exact Stmt.plainEach_uncommented bs
  | .ifBlock cs els => by simp only [Stmt.plain, Stmt.uncommented]; exact ⟨Stmt.plainClauses_uncommented cs, Stmt.plainOpt_uncommented els⟩
  | .elseClause b => by simp only [Stmt.plain, Stmt.uncommented]; exact Stmt.plainOpt_uncommented b
  | .whileBlock _ b els => by simp only [Stmt.plain, Stmt.uncommented]; exact ⟨Stmt.plainOpt_uncommented b, Stmt.plainOpt_uncommented els⟩
  | .forBlock _ _ rest => by simp only [Stmt.plain, Stmt.uncommented]; exact Stmt.plainEach_uncommented rest
  | .body ss => by simp only [Stmt.plain, Stmt.uncommented]; exact Stmt.plainAll_uncommented ss
  | .indent _ => by simp only [Stmt.plain, Stmt.uncommented]
  | .dedent _ => by simp only [Stmt.plain, Stmt.uncommented]
  | .imports _ _ _ => by simp only [Stmt.plain, Stmt.uncommented]
  | .static _ => by simp only [Stmt.plain, Stmt.uncommented]
  | .line _ => by simp only [Stmt.plain, Stmt.uncommented]
  | .text _ _ => by simp only [Stmt.plain, Stmt.uncommented]
  | .comment => by simp only [Stmt.plain, Stmt.uncommented]
  | .embed _ => by simp only [Stmt.plain, Stmt.uncommented]
  | .exprBlock _ => by simp only [Stmt.plain, Stmt.uncommented]
  | .assign _ _ _ => by simp only [Stmt.plain, Stmt.uncommented]
  | .pass => by simp only [Stmt.plain, Stmt.uncommented]
theorem Stmt.plainAll_uncommented : ∀ ss : List (Stmt P), Stmt.uncommentedAll (Stmt.plainAll ss)
  | [] => by simp only [Stmt.plainAll, Stmt.uncommentedAll]
  | s :: ss => by
    rcases s.remark_cases with ⟨m, mo, rfl⟩ | h
    · simp only [Stmt.plainAll, Stmt.remark]
      exact uncommentedAll_blank m (Stmt.plainAll_uncommented ss)
    · simp only [Stmt.plainAll, h, Stmt.uncommentedAll]
      exact ⟨by rw [plain_remark, h], s.plain_uncommented, Stmt.plainAll_uncommented ss⟩
theorem Stmt.plainEach_uncommented : ∀ ss : List (Stmt P), Stmt.uncommentedEach (Stmt.plainEach ss)
  | [] => by simp only [Stmt.plainEach, Stmt.uncommentedEach]
  | s :: ss => by simp only [Stmt.plainEach, Stmt.uncommentedEach]; exact ⟨s.plain_uncommented, Stmt.plainEach_uncommented ss⟩
theorem Stmt.plainOpt_uncommented : ∀ o : Option (Stmt P), Stmt.uncommentedOpt (Stmt.plainOpt o)
  | none => by simp only [Stmt.plainOpt, Stmt.uncommentedOpt]
  | some s => by simp only [Stmt.plainOpt, Stmt.uncommentedOpt]; exact s.plain_uncommented
theorem Stmt.plainClauses_uncommented : ∀ cs : List (Expr × Option (Stmt P)), Stmt.uncommentedClauses (Stmt.plainClauses cs)
  | [] => by simp only [Stmt.plainClauses, Stmt.uncommentedClauses]
  | (_, b) :: cs => by
    simp only [Stmt.plainClauses, Stmt.plainClause, Stmt.uncommentedClauses]
    exact ⟨Stmt.plainOpt_uncommented b, Stmt.plainClauses_uncommented cs⟩
end

end
end Verif
