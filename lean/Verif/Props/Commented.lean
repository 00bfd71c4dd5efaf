import Verif.Lemmas.Commented

/-! C122: comments in the text of a script. -/

namespace Verif
open Py Spec

section
variable {P : Type}

mutual
theorem moved_twice (j k : Nat) : ∀ (s : Stmt P), Spec.moved j (Spec.moved k s) = Spec.moved (j + k) s
  | .xblock m mo b => by simp only [Spec.moved, moved_twice j k b]
  | .struct tags b => by simp only [Spec.moved, moved_twice j k b]
  | .defn id name slot ba as b => by simp only [Spec.moved, moved_twice j k b, Nat.add_assoc]
  | .tryBlock bs => by simp only [Spec.moved, movedAll_twice j k bs]
  | .ifBlock cs els => by simp only [Spec.moved, movedClauses_twice j k cs, movedOpt_twice j k els]
  | .elseClause b => by simp only [Spec.moved, movedOpt_twice j k b]
  | .whileBlock t b els => by simp only [Spec.moved, movedOpt_twice j k b, movedOpt_twice j k els]
  | .forBlock t e rest => by simp only [Spec.moved, movedAll_twice j k rest]
  | .body ss => by simp only [Spec.moved, movedAll_twice j k ss]
  | .static s => rfl
  | .indent c => rfl
  | .dedent c => rfl
  | .line l => rfl
  | .text lead items => rfl
  | .comment => rfl
  | .embed e => rfl
  | .imports c path items => rfl
  | .exprBlock e => rfl
  | .assign t op e => rfl
  | .pass => rfl
theorem movedAll_twice (j k : Nat) : ∀ (ss : List (Stmt P)), movedAll j (movedAll k ss) = movedAll (j + k) ss
  | [] => rfl
  | s :: ss => by simp only [movedAll, moved_twice j k s, movedAll_twice j k ss]
theorem movedOpt_twice (j k : Nat) : ∀ (b : Option (Stmt P)), movedOpt j (movedOpt k b) = movedOpt (j + k) b
  | none => rfl
  | some s => by simp only [movedOpt, moved_twice j k s]
theorem movedClauses_twice (j k : Nat) : ∀ (cs : List (Expr × Option (Stmt P))), movedClauses j (movedClauses k cs) = movedClauses (j + k) cs
  | [] => rfl
  | (t, b) :: cs => by simp only [movedClauses, movedClause, movedOpt_twice j k b, movedClauses_twice j k cs]
end

end

section
variable {M : Marks} {U : Uni} [hM : MarksApart M U] {P : Type} {names : Str → Option Char}

omit hM in
/-- The first line of a comment. -/
theorem comment_line {m : Nat} {items : List Spec.Item} (h : CommentText M names m items) (s : Str) :
    ∃ c u, (c = '#' ∨ c = '-') ∧ firstLine (itemText items) = some (c :: u) ∧ firstLine (itemText items ++ '\n' :: s) = some (c :: u) := by
  have hl := items_lines (items := items) (by obtain ⟨mark, t, is, xs, rfl, _⟩ := h.shape; simp) h.ok
  obtain ⟨mark, t, is, xs, rfl, hm, _⟩ := h.shape
  obtain ⟨c, u, hc, e⟩ : ∃ c u, (c = '#' ∨ c = '-') ∧ mark ++ t = c :: u := by
    rcases hm with rfl | rfl
    · exact ⟨'#', t, .inl rfl, rfl⟩
    · exact ⟨'-', '-' :: t, .inr rfl, rfl⟩
  have hn : NonBlank (c :: u) := ⟨c, by simp, by rcases hc with rfl | rfl <;> rfl⟩
  have hb : ¬ NonBlank [] := by rintro ⟨c, hc, _⟩; cases hc
  have key : ∀ ls, (List.replicate m [] ++ (c :: u) :: ls).find? (fun l => decide (NonBlank l)) = some (c :: u) := by
    intro ls
    induction m with
    | zero => simp [hn]
    | succ m ih => simp [List.replicate_succ, hb, hn]
  refine ⟨c, u, hc, ?_, ?_⟩
  · unfold firstLine
    rw [hl, itemLines, Item.lines, List.nil_append, e, List.append_assoc]
    exact key _
  · unfold firstLine
    rw [lines_append, hl, itemLines, Item.lines, List.nil_append, e, List.append_assoc, List.append_assoc]
    exact key _

/-- C122. A comment is put above a script: the lines of the comment may be any text. The statements are the comment, and those of the
script; its definitions are at later positions. -/
theorem C122_above {m : Nat} {items : List Spec.Item} (h : CommentText M names m items) {s l : Str}
    (h0 : firstLine s = some l ∧ leading l = []) {ss : List (Stmt P)} (hs : loadScript M U names s = .ok ss) :
    loadScript M U names (itemText items ++ '\n' :: s) =
      .ok (.xblock (List.replicate m '\n') none .comment :: movedAll (itemsFlat M items).length ss) :=
  comment_above h h0 hs

omit hM in
theorem comment_apart {l1 : Str} {c : Char} {u : Str} (hc : c = '#' ∨ c = '-') : leading (c :: u) = [] ∧ ¬ Continues l1 (c :: u) := by
  constructor
  · rcases hc with rfl | rfl <;> rfl
  · have : ∀ d w, d ≠ '#' → d ≠ '-' → ¬ (d :: w) <+: c :: u := by
      intro d w h1 h2 h
      rw [List.cons_prefix_cons] at h
      rcases hc with rfl | rfl
      · exact h1 h.1
      · exact h2 h.1
    rintro (h | h | ⟨_, h⟩ | ⟨_, h⟩) <;> exact this _ _ (by decide) (by decide) h

/-- C122. A comment is put between two scripts. -/
theorem C122_between (hsp : ∀ c, isMark M c = true → isSpace c = false) {m : Nat} {items : List Spec.Item}
    (h : CommentText M names m items) {s1 s2 l0 l1 l2 : Str} {ss1 ss2 : List (Stmt P)} (hu1 : Usable M s1)
    (h0 : firstLine s1 = some l0 ∧ leading l0 = []) (h2 : firstLine s2 = some l2 ∧ leading l2 = [])
    (h1 : (lines s1).getLast? = some l1 ∧ NonBlank l1) (hr : ∀ l ∈ lines s1, RawClosed l)
    (hs1 : loadScript M U names s1 = .ok ss1) (hs2 : loadScript M U names s2 = .ok ss2) :
    ∃ A, preprocess M s1 = .ok A ∧ loadScript M U names (s1 ++ '\n' :: (itemText items ++ '\n' :: s2)) =
      .ok (ss1 ++ .xblock (List.replicate m '\n') none .comment :: movedAll (A.length + (itemsFlat M items).length) ss2) := by
  obtain ⟨c, u, hc, _, hf⟩ := comment_line h s2
  obtain ⟨hi, hn⟩ := comment_apart (l1 := l1) (u := u) hc
  obtain ⟨A, hA, e⟩ := C109_statements hsp hu1 h0 ⟨hf, hi⟩ h1 hr hn hs1 (C122_above h h2 hs2)
  refine ⟨A, hA, e.trans ?_⟩
  simp only [movedAll, Spec.moved, movedAll_twice]

/-- C122. A comment is put below a script. Its definitions stay where they are. -/
theorem C122_below (hsp : ∀ c, isMark M c = true → isSpace c = false) {m : Nat} {items : List Spec.Item}
    (h : CommentText M names m items) {s l0 l1 : Str} {ss : List (Stmt P)} (hu : Usable M s)
    (h0 : firstLine s = some l0 ∧ leading l0 = []) (h1 : (lines s).getLast? = some l1 ∧ NonBlank l1)
    (hr : ∀ l ∈ lines s, RawClosed l) (hs : loadScript M U names s = .ok ss) :
    loadScript M U names (s ++ '\n' :: itemText items) = .ok (ss ++ [.xblock (List.replicate m '\n') none .comment]) := by
  obtain ⟨c, u, hc, hf, _⟩ := comment_line h []
  obtain ⟨hi, hn⟩ := comment_apart (l1 := l1) (u := u) hc
  have hl : loadScript M U names (itemText items) = .ok [(.xblock (List.replicate m '\n') none .comment : Stmt P)] := by
    have hok := h.ok
    obtain ⟨mark, t, is, xs, rfl, hm, ht, hx⟩ := h.shape
    have := Spec.Blocks.cons (P := P) (k := 0) (m := m) (.comment hm ht hx) (.nil (M := M) (names := names))
    rw [List.append_nil] at this
    exact C77_script M U P names (by simp) hok this
  obtain ⟨A, hA, e⟩ := C109_statements hsp hu h0 ⟨hf, hi⟩ h1 hr hn hs hl
  exact e

end

section
variable {P X W I : Type}

/-- Two scripts can't be told apart: the same faults are found in both, and if there are none, the same nodes are made of both, with the same
exported values, or the same error is raised. -/
def Indistinct (ss ts : List (Stmt P)) : Prop :=
  ∀ (I X W : Type) (src : Source P I) (first : Slot) (g : Dict Str (Val P)),
    (∀ e, analyseDocument src first g ss = .error e ↔ analyseDocument src first g ts = .error e) ∧
    ∀ d e, analyseDocument src first g ss = .ok d → analyseDocument src first g ts = .ok e →
      d.slotsIn = e.slotsIn ∧ d.slotsOut = e.slotsOut ∧
      ∀ (ops : PyOps P X W) (Γ : DefId → DefInfo P) (n : Nat) (σ : StateId),
        translDocument (envAt ops Γ n) σ d = translDocument (envAt ops Γ n) σ e

theorem indistinct_of_plain {ss ts : List (Stmt P)} (h : Stmt.plainAll ss = Stmt.plainAll ts) : Indistinct ss ts := by
  intro I X W src first g
  have h1 := C113_analysed src first g ss
  have h2 := C113_analysed src first g ts
  rw [h, h2] at h1
  constructor
  · intro e
    cases ha : analyseDocument src first g ss <;> cases hb : analyseDocument src first g ts <;> rw [ha, hb] at h1 <;> simp [Except.map] at h1 ⊢
    rw [h1]
  · intro d e hd he
    rw [hd, he] at h1
    simp only [Except.map, Except.ok.injEq] at h1
    have i : d.plain.slotsIn = e.plain.slotsIn := by rw [h1]
    have o : d.plain.slotsOut = e.plain.slotsOut := by rw [h1]
    refine ⟨i, o, ?_⟩
    intro ops Γ n σ
    rw [← C113_translated ops Γ n σ d, ← C113_translated ops Γ n σ e, h1]

theorem plainAll_both (as bs : List (Stmt P)) : Stmt.plainAll (as ++ bs) = Stmt.plainAll as ++ Stmt.plainAll bs := by
  induction as with
  | nil => rfl
  | cons s a ih =>
    simp only [List.cons_append, Stmt.plainAll]
    split <;> simp [ih]

theorem indistinct_comment (as bs : List (Stmt P)) : Indistinct (as ++ .xblock [] none .comment :: bs) (as ++ bs) := by
  refine indistinct_of_plain ?_
  rw [plainAll_both, plainAll_both]
  rfl

variable {M : Marks} {U : Uni} [hM : MarksApart M U] {names : Str → Option Char}

/-- C122. A script with a comment below it can't be told apart from the script. -/
theorem C122_same_below (hsp : ∀ c, isMark M c = true → isSpace c = false) {items : List Spec.Item}
    (h : CommentText M names 0 items) {s l0 l1 : Str} {ss : List (Stmt P)} (hu : Usable M s)
    (h0 : firstLine s = some l0 ∧ leading l0 = []) (h1 : (lines s).getLast? = some l1 ∧ NonBlank l1)
    (hr : ∀ l ∈ lines s, RawClosed l) (hs : loadScript M U names s = .ok ss) :
    ∃ ts : List (Stmt P), loadScript M U names (s ++ '\n' :: itemText items) = .ok ts ∧ Indistinct ts ss := by
  refine ⟨_, C122_below hsp h hu h0 h1 hr hs, ?_⟩
  have := indistinct_comment ss []
  rwa [List.append_nil] at this

/-- C122. A script without definitions of hypertags, with a comment above it, can't be told apart from the script. -/
theorem C122_same_above {items : List Spec.Item} (h : CommentText M names 0 items) {s l : Str}
    (h0 : firstLine s = some l ∧ leading l = []) {ss : List (Stmt P)} (hs : loadScript M U names s = .ok ss)
    (hd : Stmt.defsAll ss = []) :
    ∃ ts : List (Stmt P), loadScript M U names (itemText items ++ '\n' :: s) = .ok ts ∧ Indistinct ts ss := by
  refine ⟨_, C122_above h h0 hs, ?_⟩
  rw [movedAll_plain _ _ hd]
  exact indistinct_comment [] ss

/-- C122. Two scripts, the second one without definitions: with a comment between them they can't be told apart from the two without it. -/
theorem C122_same_between (hsp : ∀ c, isMark M c = true → isSpace c = false) {items : List Spec.Item}
    (h : CommentText M names 0 items) {s1 s2 l0 l1 l2 : Str} {ss1 ss2 : List (Stmt P)} (hu1 : Usable M s1)
    (h0 : firstLine s1 = some l0 ∧ leading l0 = []) (h2 : firstLine s2 = some l2 ∧ leading l2 = [])
    (h1 : (lines s1).getLast? = some l1 ∧ NonBlank l1) (hr : ∀ l ∈ lines s1, RawClosed l) (hc : ¬ Continues l1 l2)
    (hs1 : loadScript M U names s1 = .ok ss1) (hs2 : loadScript M U names s2 = .ok ss2) (hd : Stmt.defsAll ss2 = []) :
    ∃ ts us : List (Stmt P), loadScript M U names (s1 ++ '\n' :: s2) = .ok ts ∧
      loadScript M U names (s1 ++ '\n' :: (itemText items ++ '\n' :: s2)) = .ok us ∧ Indistinct us ts := by
  obtain ⟨A, _, e1⟩ := C109_statements hsp hu1 h0 h2 h1 hr hc hs1 hs2
  obtain ⟨B, _, e2⟩ := C122_between hsp h hu1 h0 h2 h1 hr hs1 hs2
  refine ⟨_, _, e1, e2, ?_⟩
  rw [movedAll_plain _ _ hd, movedAll_plain _ _ hd]
  exact indistinct_comment ss1 ss2

end

/-! ### Examples -/

namespace CommentedEx
attribute [local instance] defaultMarks_apart

def script : Str := s!!"ul\n  li | one\np | two"
/-- The text of the comment has an open quote after `r`, an open bracket and words of operators; there is a line under it. -/
def comment : List Spec.Item := [.line 0 (s!!"# the user's (input is not"), .group (s!!"  ") [.line 0 (s!!"else")]]

theorem plain_ok (t : Str) (h : t.all (fun c => decide (c.toNat < 128 ∧ c ≠ '\n')) = true) : ∀ c ∈ t, TextChar defaultMarks c := by
  intro c hc
  have := List.all_eq_true.1 h c hc
  simp only [decide_eq_true_eq] at this
  refine ⟨this.2, ?_, ?_, ?_, ?_⟩ <;> (rintro rfl; exact absurd this.1 (by decide))

theorem comment_ok : CommentText defaultMarks (fun _ => none) 0 comment := by
  refine ⟨⟨s!!"#", s!!" the user's (input is not", _, _, rfl, .inl rfl, plain_ok _ (by decide),
    .group (inc := s!!"  ") (by unfold Blanks; decide) (by simp) (by simp) (.line (.verbat (by simp) (plain_ok _ (by decide))) .nil)⟩, ?_⟩
  refine ⟨⟨by decide, by decide, by decide⟩, ⟨⟨by decide, by decide, by simp, ⟨⟨by decide, by decide, by decide⟩, trivial, ?_⟩⟩, trivial, ?_⟩, ?_⟩ <;> simp [Item.isGroup]

theorem space_marks : ∀ c, isMark defaultMarks c = true → isSpace c = false := by
  intro c hc
  have : c = '❨' ∨ c = '❩' ∨ c = '❪' ∨ c = '❫' := by simpa [isMark, defaultMarks, or_assoc] using hc
  rcases this with rfl | rfl | rfl | rfl <;> decide

example : itemText comment = s!!"# the user's (input is not\n  else" := by decide

/-- The conditions hold for the script, and with the comment below it, it is the same. -/
example (ss : List (Stmt Unit)) (hs : loadScript defaultMarks asciiUni (fun _ => none) script = .ok ss) :
    ∃ ts, loadScript defaultMarks asciiUni (fun _ => none) (script ++ '\n' :: itemText comment) = .ok ts ∧ Indistinct ts ss := by
  have hraw : ∀ l ∈ lines script, RawClosed l := by
    intro l hl u q v h _
    have : 'r' ∈ l := by rw [h]; simp
    have : ∀ l ∈ lines script, 'r' ∉ l := by decide
    exact absurd ‹'r' ∈ l› (this l hl)
  exact C122_same_below space_marks comment_ok (l0 := s!!"ul") (l1 := s!!"p | two") ⟨defaultMarks_apart.distinct, by decide, by decide⟩
    (by decide) (by decide) hraw hs

example : (loadScript (P := Unit) defaultMarks asciiUni (fun _ => none) script).toOption.isSome = true := by decide +kernel

def tags : Dict Str (Val Toy.Obj) := [(s!!"%p", .py (.tag 0))]

-- the text is the same, with a comment above, below, and between
example : exText tags (s!!"p | one\np | two") = some (s!!"<p>one</p>\n<p>two</p>") ∧
    exText tags (s!!"# it's\n  else\np | one\np | two") = some (s!!"<p>one</p>\n<p>two</p>") ∧
    exText tags (s!!"p | one\n-- r' not\np | two") = some (s!!"<p>one</p>\n<p>two</p>") ∧
    exText tags (s!!"p | one\np | two\n#") = some (s!!"<p>one</p>\n<p>two</p>") := by decide +kernel

-- the definition below a comment is at a later position: the number of characters of the comment, and one
example : exPlaces (s!!"% h x\n  p | $x\n|one") = some ([1], [1]) ∧ exPlaces (s!!"# no\n% h x\n  p | $x\n|one") = some ([6], [1]) := by decide +kernel

-- a comment between the clauses of a statement is an error
example : (exPlaces (s!!"if 0\n  p | one\nelse\n  p | two")).isSome = true ∧ exPlaces (s!!"if 0\n  p | one\n# no\nelse\n  p | two") = none := by decide +kernel

end CommentedEx
end Verif
