import Verif.Lemmas.FitLoad
import Verif.Lemmas.Post
import Verif.Lemmas.Html
import Verif.Model.Analyse

/-! Definitions of a script have different positions. -/

namespace Verif
open Py Spec

/-! ### Positions of definitions in a rewritten tree -/

mutual
/-- Positions of the definitions, parents first. -/
def RTree.spots : RTree → List Nat
  | .str _ _ => []
  | .node n pos _ cs => if n = .block_def then pos :: RTree.spotsAll cs else RTree.spotsAll cs
def RTree.spotsAll : List RTree → List Nat
  | [] => []
  | c :: cs => c.spots ++ RTree.spotsAll cs
end

theorem spotsAll_append (as bs : List RTree) : RTree.spotsAll (as ++ bs) = RTree.spotsAll as ++ RTree.spotsAll bs := by
  induction as with
  | nil => rfl
  | cons a as ih => simp only [List.cons_append, RTree.spotsAll, ih, List.append_assoc]

/-- Increasing numbers between two bounds. -/
def Inc (lo hi : Nat) (l : List Nat) : Prop := l.Pairwise (· < ·) ∧ ∀ x ∈ l, lo ≤ x ∧ x < hi

theorem Inc.nil {lo hi : Nat} : Inc lo hi [] := ⟨.nil, by simp⟩

theorem Inc.mono {lo hi lo' hi' : Nat} {l : List Nat} (h : Inc lo hi l) (h1 : lo' ≤ lo) (h2 : hi ≤ hi') : Inc lo' hi' l :=
  ⟨h.1, fun x hx => ⟨Nat.le_trans h1 (h.2 x hx).1, Nat.lt_of_lt_of_le (h.2 x hx).2 h2⟩⟩

theorem Inc.append {a b c : Nat} {l l' : List Nat} (h : Inc a b l) (h' : Inc b c l') (hab : a ≤ b) (hbc : b ≤ c) : Inc a c (l ++ l') := by
  refine ⟨List.pairwise_append.2 ⟨h.1, h'.1, fun x hx y hy => Nat.lt_of_lt_of_le (h.2 x hx).2 (h'.2 y hy).1⟩, ?_⟩
  intro x hx
  rcases List.mem_append.1 hx with hx | hx
  · exact (h.mono (Nat.le_refl _) hbc).2 x hx
  · exact (h'.mono hab (Nat.le_refl _)).2 x hx

theorem Inc.cons {a c : Nat} {l : List Nat} (h : Inc (a + 1) c l) (hac : a < c) : Inc a c (a :: l) := by
  refine ⟨List.pairwise_cons.2 ⟨fun x hx => (h.2 x hx).1, h.1⟩, ?_⟩
  intro x hx
  rcases List.mem_cons.1 hx with rfl | hx
  · exact ⟨Nat.le_refl _, hac⟩
  · exact (h.mono (Nat.le_succ a) (Nat.le_refl _)).2 x hx

theorem Inc.sublist {a c : Nat} {l l' : List Nat} (h : Inc a c l') (hs : l.Sublist l') : Inc a c l :=
  ⟨h.1.sublist hs, fun x hx => h.2 x (hs.subset hx)⟩

theorem Inc.nodup {a c : Nat} {l : List Nat} (h : Inc a c l) : l.Nodup := h.1.imp (fun h => Nat.ne_of_lt h)

/-- A sequence that begins with the mark of a definition. -/
def bumps : List (Peg NT) → Nat
  | .ref .mark_def :: _ => 1
  | _ => 0

def bump : Peg NT → Nat
  | .seq ps => bumps ps
  | _ => 0

section
variable {M : Marks} {U : Uni}

theorem Derives.mark {t : PTree NT} (h : Derives (rule M U) (.ref .mark_def) t) : ∃ cs, t = .node (Option.some NT.mark_def) ['%'] cs := by
  generalize hp : (Peg.ref .mark_def : Peg NT) = p at h
  cases h <;> cases hp
  rename_i t h
  generalize hp : rule M U .mark_def = p at h
  cases h <;> cases hp
  exact ⟨[], rfl⟩

theorem compact_spots (n : NT) (start : Nat) (w : Str) (cs : List RTree) (hn : n ≠ .block_def) :
    (compactNode n start w cs).spots = RTree.spotsAll cs := by
  unfold compactNode
  split
  · split
    · simp [RTree.spotsAll]
    · simp [RTree.spots, hn]
  · simp [RTree.spots, hn]

mutual
theorem Derives.spots : ∀ {p : Peg NT} {t : PTree NT}, Derives (rule M U) p t → ∀ start : Nat,
    Inc start (start + t.text.length) (RTree.spotsAll (rewrite start t)) ∧
    Inc (start + bump p) (start + t.text.length) (RTree.spotsAll (rewrites start t.children)) ∧ bump p ≤ t.text.length
  | _, _, .lit l, start => ⟨.nil, .nil, Nat.zero_le _⟩
  | _, _, .rx _, start => ⟨.nil, .nil, Nat.zero_le _⟩
  | _, _, .none, start => ⟨.nil, .nil, Nat.zero_le _⟩
  | _, _, .not, start => ⟨.nil, .nil, Nat.zero_le _⟩
  | _, _, .seq h, start => by
    obtain ⟨h1, h2⟩ := DerivesSeq.spots h start
    simp only [rewrite, bump, PTree.text, PTree.children]
    exact ⟨h1.mono (Nat.le_add_right _ _) (Nat.le_refl _), h1, h2⟩
  | _, _, .star h, start => by
    have h1 := DerivesStar.spots h start
    simp only [rewrite, bump, PTree.text, PTree.children]
    exact ⟨h1, h1, Nat.zero_le _⟩
  | _, _, .alt hp h, start => by
    have h1 := (Derives.spots h start).1
    simp only [rewrite, rewrites, bump, PTree.text, PTree.children, List.append_nil]
    exact ⟨h1, h1, Nat.zero_le _⟩
  | _, _, .some h, start => by
    have h1 := (Derives.spots h start).1
    simp only [rewrite, rewrites, bump, PTree.text, PTree.children, List.append_nil]
    exact ⟨h1, h1, Nat.zero_le _⟩
  | _, _, .plus (c := c) h h', start => by
    have h1 := (Derives.spots h start).1
    have h2 := DerivesStar.spots h' (start + c.text.length)
    have h3 := h1.append h2 (Nat.le_add_right _ _) (Nat.le_add_right _ _)
    simp only [rewrite, rewrites, bump, PTree.text, PTree.children, spotsAll_append, texts_cons, List.length_append, ← Nat.add_assoc]
    exact ⟨h3, h3, Nat.zero_le _⟩
  | _, _, .ref (n := n) (t := t) h, start => by
    obtain ⟨-, h2, h3⟩ := Derives.spots h start
    obtain ⟨w, cs, rfl⟩ := h.anon (rule_noRef n)
    simp only [PTree.text, PTree.children, PTree.rename] at h2 h3 ⊢
    have h4 : Inc start (start + w.length) (RTree.spotsAll (rewrites start cs)) := h2.mono (Nat.le_add_right _ _) (Nat.le_refl _)
    refine ⟨?_, h4, Nat.zero_le _⟩
    rw [rewrite_named n start w cs (fun hr hcs => by subst hcs; exact h.childless (rule_inner hr))]
    split
    · exact .nil
    split
    · exact h4
    simp only [RTree.spotsAll, List.append_nil]
    by_cases hn : n = .block_def
    · subst hn
      have hb : bump (rule M U .block_def) = 1 := rfl
      rw [hb] at h2 h3
      simp only [compactNode, isCompact, Bool.false_eq_true, if_false, RTree.spots, if_true]
      exact h2.cons (by omega)
    · rw [compact_spots n start w _ hn]
      exact h4
theorem DerivesSeq.spots : ∀ {ps : List (Peg NT)} {ts : List (PTree NT)}, DerivesSeq (rule M U) ps ts → ∀ start : Nat,
    Inc (start + bumps ps) (start + (texts ts).length) (RTree.spotsAll (rewrites start ts)) ∧ bumps ps ≤ (texts ts).length
  | _, _, .nil, start => ⟨.nil, Nat.zero_le _⟩
  | _, _, .cons (p := p) (ps := ps) (c := c) (cs := cs) h h', start => by
    have h1 := (Derives.spots h start).1
    have h2 := (DerivesSeq.spots h' (start + c.text.length)).1
    have h2 := h2.mono (lo' := start + c.text.length) (Nat.le_add_right _ _) (Nat.le_refl _)
    simp only [rewrites, spotsAll_append, texts_cons, List.length_append, ← Nat.add_assoc]
    by_cases hp : p = .ref .mark_def
    · subst hp
      obtain ⟨ds, rfl⟩ := h.mark
      have e : rewrite start (.node (Option.some NT.mark_def) ['%'] ds) = [] := by unfold rewrite; rfl
      rw [e]
      simp only [RTree.spotsAll, List.nil_append, bumps, PTree.text, List.length_cons, List.length_nil, Nat.zero_add] at h2 ⊢
      exact ⟨h2, by omega⟩
    · have hb : bumps (p :: ps) = 0 := by
        unfold bumps
        split
        · rename_i e; cases e; exact absurd rfl hp
        · rfl
      rw [hb]
      exact ⟨h1.append h2 (Nat.le_add_right _ _) (Nat.le_add_right _ _), Nat.zero_le _⟩
theorem DerivesStar.spots : ∀ {p : Peg NT} {ts : List (PTree NT)}, DerivesStar (rule M U) p ts → ∀ start : Nat,
    Inc start (start + (texts ts).length) (RTree.spotsAll (rewrites start ts))
  | _, _, .nil, start => .nil
  | _, _, .cons (c := c) h h', start => by
    have h1 := (Derives.spots h start).1
    have h2 := DerivesStar.spots h' (start + c.text.length)
    simp only [rewrites, spotsAll_append, texts_cons, List.length_append, ← Nat.add_assoc]
    exact h1.append h2 (Nat.le_add_right _ _) (Nat.le_add_right _ _)
end

end

/-! ### Positions of definitions in nodes -/

section
variable {P : Type}

/-- Positions of the definitions in a node. -/
def Built.ids : Built P → List Nat
  | .stmt s => s.defs.map Prod.fst
  | .clause _ b => (Stmt.defsOpt b).map Prod.fst
  | .document ss => (Stmt.defsAll ss).map Prod.fst
  | _ => []

/-- The same for a list of nodes. -/
def builtIds : List (Built P) → List Nat
  | [] => []
  | b :: bs => b.ids ++ builtIds bs

theorem attachQuals_ids (bs : List (Built P)) : builtIds (attachQuals bs) = builtIds bs := by
  fun_induction attachQuals bs with
  | case1 _ _ _ _ ih => simp only [builtIds, Built.ids, ih]
  | case2 _ _ _ ih => simp only [builtIds, ih]
  | case3 => rfl

theorem asStmts_ids : ∀ {bs : List (Built P)} {ss : List (Stmt P)}, asStmts bs = .ok ss → (Stmt.defsAll ss).map Prod.fst = builtIds bs := by
  intro bs
  fun_induction asStmts bs with
  | case1 => intro ss h; cases h; rfl
  | case7 => intro ss h; cases h
  | _ =>
    rename_i ih
    intro ss h
    obtain ⟨t, h1, h2⟩ := Except.bind_eq_ok.1 h
    cases h2
    simp [Stmt.defsAll, Stmt.defs, builtIds, Built.ids, ih h1]

theorem splitDef_ids : ∀ {bs : List (Built P)} {as : List (AttrDef × Bool)} {b : Stmt P}, splitDef bs = .ok (as, b) →
    b.defs.map Prod.fst = builtIds bs := by
  intro bs
  fun_induction splitDef bs with
  | case1 => intro as b h; cases h; simp [builtIds, Built.ids]
  | case2 _ _ _ _ ih =>
    intro as b h
    obtain ⟨⟨t, b'⟩, h1, h2⟩ := Except.bind_eq_ok.1 h
    cases h2
    simp [builtIds, Built.ids, ih h1]
  | case3 => intro as b h; cases h

theorem splitClauses_ids : ∀ {bs : List (Built P)} {cs : List (Expr × Option (Stmt P))} {els : Option (Stmt P)}, splitClauses bs = .ok (cs, els) →
    (Stmt.defsClauses cs ++ Stmt.defsOpt els).map Prod.fst = builtIds bs := by
  intro bs
  fun_induction splitClauses bs with
  | case1 => intro as b h; cases h; simp [builtIds, Stmt.defsClauses, Stmt.defsOpt]
  | case2 => intro as b h; cases h; simp [builtIds, Built.ids, Stmt.defsClauses, Stmt.defsOpt]
  | case3 _ _ _ ih =>
    intro as b h
    obtain ⟨⟨t, b'⟩, h1, h2⟩ := Except.bind_eq_ok.1 h
    cases h2
    have := ih h1
    simp only [List.map_append] at this
    simp [builtIds, Built.ids, Stmt.defsClauses, Stmt.defsClause, ← this]
  | case4 => intro as b h; cases h

theorem setupDef_ids {pos : Nat} {name : Str} {rest : List (Built P)} {s : Stmt P} (h : setupDef pos name rest = .ok s) :
    s.defs.map Prod.fst = pos :: builtIds rest := by
  unfold setupDef at h
  obtain ⟨⟨as, b⟩, h1, h2⟩ := Except.bind_eq_ok.1 h
  have := splitDef_ids h1
  simp only at h2
  split at h2
  · cases h2
  · split at h2 <;> cases h2 <;> simp [Stmt.defs, this]

/-- Nodes without definitions. -/
def Built.plain : Built P → Bool
  | .stmt _ => false
  | .clause _ _ => false
  | .document _ => false
  | _ => true

theorem Built.plain_ids {b : Built P} (h : b.plain = true) : b.ids = [] := by
  cases b <;> first | rfl | cases h

theorem setupExpr_plain (names : Str → Option Char) (n : NT) (w : Str) (cs : List (Built P)) :
    Post (fun b : Built P => b.plain = true) (setupExpr names n w cs) := by
  intro b h
  unfold setupExpr at h
  repeat' split at h
  all_goals first
    | (cases h; done)
    | (cases h; rfl)
    | (obtain ⟨x, -, h2⟩ := Except.bind_eq_ok.1 h; cases h2; rfl)

theorem setupAssign_ids {cs : List (Built P)} {s : Stmt P} (h : setupAssign cs = .ok s) : s.defs = [] := by
  unfold setupAssign at h
  split at h
  · cases h; rfl
  · cases h; rfl
  · obtain ⟨x, -, h2⟩ := Except.bind_eq_ok.1 h; cases h2; rfl
  · obtain ⟨x, -, h2⟩ := Except.bind_eq_ok.1 h; cases h2; rfl
  · cases h

theorem setup_ids (names : Str → Option Char) (full : Str) (n : NT) (pos : Nat) (w : Str) (cs : List (Built P)) :
    Post (fun b : Built P => b.ids.Sublist (if n = .block_def then pos :: builtIds cs else builtIds cs)) (setup names full n pos w cs) := by
  intro b h
  unfold setup at h
  split at h
  all_goals try split at h
  all_goals first
    | (cases h; done)
    | (cases h; exact List.nil_sublist _)
    | (obtain ⟨x, -, h2⟩ := Except.bind_eq_ok.1 h; cases h2; exact List.nil_sublist _)
    | (exact (Built.plain_ids (setupExpr_plain names _ _ _ _ h)) ▸ List.nil_sublist _)
    | (simp only at h; split at h <;> cases h <;> exact List.nil_sublist _)
    | (cases h; simp [Built.ids, builtIds, Stmt.defs, Stmt.defsOpt])
    | (obtain ⟨x, h1, h2⟩ := Except.bind_eq_ok.1 h; cases h2; simp [Built.ids, builtIds, Stmt.defs, asStmts_ids h1])
    | (obtain ⟨x, h1, h2⟩ := Except.bind_eq_ok.1 h; cases h2; simp [Built.ids, builtIds, setupDef_ids h1])
    | (obtain ⟨⟨x, y⟩, h1, h2⟩ := Except.bind_eq_ok.1 h; cases h2
       have := splitClauses_ids h1
       simp only [List.map_append] at this
       simp [Built.ids, Stmt.defs, this])
    | (obtain ⟨x, h1, h2⟩ := Except.bind_eq_ok.1 h; cases h2; simp [Built.ids, setupAssign_ids h1])

mutual
theorem build_ids (names : Str → Option Char) (full : Str) : ∀ (t : RTree) (b : Built P), build names full t = .ok b → b.ids.Sublist t.spots
  | .str _ _, b, h => by simp [build] at h
  | .node n pos w cs, b, h => by
    unfold build at h
    split at h
    · rename_i bs hb
      have h1 := setup_ids names full n pos w _ b h
      rw [attachQuals_ids] at h1
      have h2 := buildAll_ids names full cs bs hb
      refine h1.trans ?_
      rw [RTree.spots]
      split
      · exact h2.cons_cons _
      · exact h2
    · cases h
theorem buildAll_ids (names : Str → Option Char) (full : Str) : ∀ (ts : List RTree) (bs : List (Built P)), buildAll names full ts = .ok bs →
    (builtIds bs).Sublist (RTree.spotsAll ts)
  | [], bs, h => by cases h; exact .refl _
  | t :: ts, bs, h => by
    unfold buildAll at h
    split at h
    · rename_i b hb
      split at h
      · rename_i bs' hbs
        cases h
        exact (build_ids names full t b hb).append (buildAll_ids names full ts bs' hbs)
      · cases h
    · cases h
end

/-- Identities of the definitions of a loaded script increase. -/
theorem load_ids {M : Marks} {U : Uni} {names : Str → Option Char} {script : Str} {ss : List (Stmt P)} (h : loadScript M U names script = .ok ss) :
    ((Stmt.defsAll ss).map Prod.fst).Pairwise (· < ·) := by
  unfold loadScript at h
  split at h
  · cases h
  · rename_i flat hf
    split at h
    · cases h
    · rename_i t ht
      split at h
      · rename_i ss' hb
        cases h
        have h1 := buildAll_ids names flat _ _ hb
        have h2 := ((parse_derives ht).spots 0).1.sublist h1
        simpa [builtIds, Built.ids] using h2.1
      · cases h
      · cases h

/-! ### Analysis keeps the definitions -/

section
variable {I : Type} (src : Source P I)

mutual
theorem analyse_ids : ∀ (s : Stmt P) (c : Ctx), Post (fun r => r.1.defs.map Prod.fst = s.defs.map Prod.fst) (analyse src s c)
  | .static _, c => by simp only [analyse]; exact .pure rfl
  | .indent _, c => by simp only [analyse]; exact .pure rfl
  | .dedent _, c => by simp only [analyse]; exact .pure rfl
  | .line l, c => by
    intro r h
    simp only [analyse] at h
    obtain ⟨x, -, h2⟩ := Except.bind_eq_ok.1 h; cases h2; rfl
  | .xblock m mo b, c => by
    simp only [analyse]
    refine (analyse_ids b _).bind ?_
    rintro ⟨b', c1⟩ h1
    exact .pure (by simpa only [Stmt.defs] using h1)
  | .text _ items, c => by
    intro r h
    simp only [analyse] at h
    obtain ⟨x, -, h2⟩ := Except.bind_eq_ok.1 h; cases h2; rfl
  | .comment, c => by simp only [analyse]; exact .pure rfl
  | .embed e, c => by
    intro r h
    simp only [analyse] at h
    obtain ⟨x, -, h2⟩ := Except.bind_eq_ok.1 h; cases h2; rfl
  | .struct tags b, c => by
    intro r h
    simp only [analyse] at h
    obtain ⟨tags', -, h2⟩ := Except.bind_eq_ok.1 h
    obtain ⟨⟨b', c1⟩, h3, h4⟩ := Except.bind_eq_ok.1 h2
    cases h4
    simpa only [Stmt.defs] using analyse_ids b _ _ h3
  | .defn id name _ ba as b, c => by
    intro r h
    simp only [analyse] at h
    split at h
    · cases h
    obtain ⟨x1, -, h⟩ := Except.bind_eq_ok.1 h
    obtain ⟨x2, -, h⟩ := Except.bind_eq_ok.1 h
    obtain ⟨x3, -, h⟩ := Except.bind_eq_ok.1 h
    obtain ⟨x4, -, h⟩ := Except.bind_eq_ok.1 h
    obtain ⟨⟨b', c1⟩, h3, h⟩ := Except.bind_eq_ok.1 h
    obtain ⟨x5, -, h⟩ := Except.bind_eq_ok.1 h
    cases h
    simpa only [Stmt.defs, List.map_cons, List.cons.injEq, true_and] using analyse_ids b _ _ h3
  | .imports true path items, c => by
    intro r h
    simp only [analyse] at h
    split at h
    · obtain ⟨x, -, h2⟩ := Except.bind_eq_ok.1 h; cases h2; rfl
    · cases h
  | .imports false path items, c => by
    intro r h
    simp only [analyse] at h
    split at h
    · cases h
    · obtain ⟨x, -, h2⟩ := Except.bind_eq_ok.1 h; cases h2; rfl
  | .tryBlock bs, c => by
    simp only [analyse]
    refine (analyseBranches_ids bs _).bind ?_
    rintro ⟨b', c1⟩ h1
    exact .pure (by simpa only [Stmt.defs] using h1)
  | .ifBlock cs els, c => by
    simp only [analyse]
    refine (analyseClauses_ids cs _).bind ?_
    rintro ⟨cs', c1⟩ h1
    refine (analyseElse_ids els _).bind ?_
    rintro ⟨els', c2⟩ h2
    exact .pure (by simp only [Stmt.defs, List.map_append, h1, h2])
  | .elseClause b, c => by
    simp only [analyse]
    refine (analyseOpt_ids b _).bind ?_
    rintro ⟨b', c1⟩ h1
    exact .pure (by simpa only [Stmt.defs] using h1)
  | .whileBlock t b els, c => by
    intro r h
    simp only [analyse] at h
    obtain ⟨x, -, h⟩ := Except.bind_eq_ok.1 h
    obtain ⟨⟨b', c1⟩, h1, h⟩ := Except.bind_eq_ok.1 h
    obtain ⟨⟨els', c2⟩, h2, h⟩ := Except.bind_eq_ok.1 h
    cases h
    have h1 := analyseOpt_ids b _ _ h1
    have h2 := analyseElse_ids els _ _ h2
    simp only at h1 h2
    simp only [Stmt.defs, List.map_append, h1, h2]
  | .forBlock targets e rest, c => by
    intro r h
    simp only [analyse] at h
    obtain ⟨x, -, h⟩ := Except.bind_eq_ok.1 h
    obtain ⟨y, -, h⟩ := Except.bind_eq_ok.1 h
    obtain ⟨⟨b', c1⟩, h1, h⟩ := Except.bind_eq_ok.1 h
    cases h
    have h1 := analyseFirst_ids rest _ _ h1
    simpa only [Stmt.defs] using h1
  | .exprBlock e, c => by
    intro r h
    simp only [analyse] at h
    obtain ⟨x, -, h2⟩ := Except.bind_eq_ok.1 h; cases h2; rfl
  | .assign targets op e, c => by
    intro r h
    simp only [analyse] at h
    obtain ⟨x, -, h⟩ := Except.bind_eq_ok.1 h
    obtain ⟨y, -, h2⟩ := Except.bind_eq_ok.1 h; cases h2; rfl
  | .body ss, c => by
    simp only [analyse]
    refine (analyseAll_ids ss _).bind ?_
    rintro ⟨b', c1⟩ h1
    exact .pure (by simpa only [Stmt.defs] using h1)
  | .pass, c => by simp only [analyse]; exact .pure rfl
theorem analyseAll_ids : ∀ (ss : List (Stmt P)) (c : Ctx),
    Post (fun r => (Stmt.defsAll r.1).map Prod.fst = (Stmt.defsAll ss).map Prod.fst) (analyseAll src ss c)
  | [], c => by simp only [analyseAll]; exact .pure rfl
  | s :: ss, c => by
    simp only [analyseAll]
    refine (analyse_ids s _).bind ?_
    rintro ⟨s', c1⟩ h1
    refine (analyseAll_ids ss _).bind ?_
    rintro ⟨ss', c2⟩ h2
    exact .pure (by simp only [Stmt.defsAll, List.map_append, h1, h2])
theorem analyseBranches_ids : ∀ (ss : List (Stmt P)) (c : Ctx),
    Post (fun r => (Stmt.defsAll r.1).map Prod.fst = (Stmt.defsAll ss).map Prod.fst) (analyseBranches src ss c)
  | [], c => by simp only [analyseBranches]; exact .pure rfl
  | s :: ss, c => by
    simp only [analyseBranches]
    refine (analyse_ids s _).bind ?_
    rintro ⟨s', c1⟩ h1
    refine (analyseBranches_ids ss _).bind ?_
    rintro ⟨ss', c2⟩ h2
    exact .pure (by simp only [Stmt.defsAll, List.map_append, h1, h2])
theorem analyseClauses_ids : ∀ (cs : List (Expr × Option (Stmt P))) (c : Ctx),
    Post (fun r => (Stmt.defsClauses r.1).map Prod.fst = (Stmt.defsClauses cs).map Prod.fst) (analyseClauses src cs c)
  | [], c => by simp only [analyseClauses]; exact .pure rfl
  | s :: ss, c => by
    simp only [analyseClauses]
    refine (analyseClause_ids s _).bind ?_
    rintro ⟨s', c1⟩ h1
    refine (analyseClauses_ids ss _).bind ?_
    rintro ⟨ss', c2⟩ h2
    exact .pure (by simp only [Stmt.defsClauses, List.map_append, h1, h2])
theorem analyseClause_ids : ∀ (cl : Expr × Option (Stmt P)) (c : Ctx),
    Post (fun r => (Stmt.defsClause r.1).map Prod.fst = (Stmt.defsClause cl).map Prod.fst) (analyseClause src cl c)
  | (t, b), c => by
    intro r h
    simp only [analyseClause] at h
    obtain ⟨x, -, h⟩ := Except.bind_eq_ok.1 h
    obtain ⟨⟨b', c1⟩, h1, h⟩ := Except.bind_eq_ok.1 h
    cases h
    have h1 := analyseOpt_ids b _ _ h1
    simpa only [Stmt.defsClause] using h1
theorem analyseElse_ids : ∀ (b : Option (Stmt P)) (c : Ctx),
    Post (fun r => (Stmt.defsOpt r.1).map Prod.fst = (Stmt.defsOpt b).map Prod.fst) (analyseElse src b c)
  | .none, c => by simp only [analyseElse]; exact .pure rfl
  | .some s, c => by
    simp only [analyseElse]
    refine (analyse_ids s _).bind ?_
    rintro ⟨s', c1⟩ h1
    exact .pure (by simpa only [Stmt.defsOpt] using h1)
theorem analyseOpt_ids : ∀ (b : Option (Stmt P)) (c : Ctx),
    Post (fun r => (Stmt.defsOpt r.1).map Prod.fst = (Stmt.defsOpt b).map Prod.fst) (analyseOpt src b c)
  | .none, c => by simp only [analyseOpt]; exact .pure rfl
  | .some s, c => by
    simp only [analyseOpt]
    refine (analyse_ids s _).bind ?_
    rintro ⟨s', c1⟩ h1
    exact .pure (by simpa only [Stmt.defsOpt] using h1)
theorem analyseFirst_ids : ∀ (ss : List (Stmt P)) (c : Ctx),
    Post (fun r => (Stmt.defsAll r.1).map Prod.fst = (Stmt.defsAll ss).map Prod.fst) (analyseFirst src ss c)
  | [], c => by simp only [analyseFirst]; exact .pure rfl
  | s :: ss, c => by
    simp only [analyseFirst]
    refine (analyse_ids s _).bind ?_
    rintro ⟨s', c1⟩ h1
    exact .pure (by simp only [Stmt.defsAll, List.map_append, h1])
end

theorem analyseDocument_ids (first : Slot) (globals : Dict Str (Val P)) (ss : List (Stmt P)) :
    Post (fun doc => (Stmt.defsAll doc.children).map Prod.fst = (Stmt.defsAll ss).map Prod.fst) (analyseDocument src first globals ss) := by
  intro doc h
  unfold analyseDocument at h
  obtain ⟨⟨ins, c1⟩, -, h⟩ := Except.bind_eq_ok.1 h
  obtain ⟨⟨ch, c2⟩, h1, h⟩ := Except.bind_eq_ok.1 h
  cases h
  exact analyseAll_ids src ss _ _ h1

end

end
end Verif
