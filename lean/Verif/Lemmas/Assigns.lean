import Verif.Lemmas.Remarks

/-! Assignments. -/

set_option linter.unusedSectionVars false

namespace Verif
open Py Spec

section
variable {M : Marks} {U : Uni} {P : Type} {names : Str → Option Char} {full : Str} {k : Nat}

local notation "Bd" => Builds M U P names full
local notation "Bq" => BuildsSeq M U P names full
local notation "Bs" => BuildsStar M U P names full
local notation "Bm" => Many M U P names full
local notation "Fl" => Fails (rule M U)
local notation "Fq" => FailsSeq (rule M U)

/-! Targets -/

/-- What follows targets: blanks and then `s`. -/
structure TargetsEnd (M : Marks) (U : Uni) (w s : Str) : Prop where
  blanks : Blanks w
  noBlank : NoBlank s
  noComma : s.head? ≠ some ','
  noTarget : Fails (rule M U) (.ref .target) s
  nameEnd : NameEnd (w ++ s)

theorem no_target {c : Char} {s : Str} (h : nameStart c = false) (h' : c ≠ '(') : Fl (.ref .target) (c :: s) :=
  .ref (.alt (.cons (.seq1 (.lit1 h')) (.cons (.ref (.seq1 (.name_start h))) (.nil _))))

theorem TargetsEnd.sym {w s : Str} {c : Char} (hw : Blanks w)
    (hc : isBlank c = false ∧ c ≠ ',' ∧ nameStart c = false ∧ c ≠ '(' ∧ nameChar c = false) : TargetsEnd M U w (c :: s) :=
  ⟨hw, .cons hc.1, by simpa using hc.2.1, no_target hc.2.2.1 hc.2.2.2.1, nameEnd_blanks hw hc.2.2.2.2⟩

/-- One target is read. -/
def ReadsTarget (M : Marks) (U : Uni) (P : Type) (names : Str → Option Char) (full : Str) (t : Str) (x : Target) : Prop :=
  t ≠ [] ∧ (∀ s, NoBlank (t ++ s)) ∧ ∀ k rest, NameEnd rest → Builds M U P names full k (.ref .target) t rest [.target x]

/-- The parts of targets: the first one, further ones, the comma at the end. -/
structure TargetsSplit (M : Marks) (U : Uni) (P : Type) (names : Str → Option Char) (full : Str) (w s t : Str) (xs : List Target)
    (a b c : Str) (x : Target) (ys : List Target) : Prop where
  text : t = a ++ (b ++ c)
  nodes : xs = x :: ys
  ne : a ≠ []
  noBlank : ∀ s, NoBlank (a ++ s)
  nameEnd : NameEnd (b ++ (c ++ (w ++ s)))
  first : ∀ k, Builds M U P names full k (.ref .target) a (b ++ (c ++ (w ++ s))) [.target x]
  more : ∀ k, BuildsStar M U P names full k (.seq [.ref .comma, .ref .target]) b (c ++ (w ++ s)) (ys.map .target)
  last : ∀ k, Builds M U P names full k (.opt (.seq [.ref .ws, .lit (s!!",")])) c (w ++ s) []

theorem asTargets_map (xs : List Target) : asTargets (P := P) (xs.map .target) = .ok xs := by
  induction xs with
  | nil => rfl
  | cons x xs ih => simp only [List.map_cons, asTargets, ih]; rfl

theorem targets_noQual (xs : List Target) : NoQual (P := P) (xs.map .target) := by
  intro q h; simp at h

theorem TargetsSplit.builds {w s t a b c : Str} {xs ys : List Target} {x : Target}
    (h : TargetsSplit M U P names full w s t xs a b c x ys) : Bd k (.ref .targets) t (w ++ s) [.target (.many xs)] := by
  refine .plain (bs := xs.map .target) ?_ ?_
  · refine .ofSeq (.step (h.first _) (.step (.star (h.more _)) (.step (h.last _) (.nil _)))) ?_ ?_
    · simp [h.text]
    · simp [h.nodes]
  · rw [attachQuals_id (targets_noQual _)]
    simp only [setup, asTargets_map]; rfl

theorem TargetsEnd.no_more {w s : Str} (h : TargetsEnd M U w s) : Fl (.seq [.ref .comma, .ref .target]) (w ++ s) ∧
    Fl (.seq [.ref .ws, .lit (s!!",")]) (w ++ s) :=
  ⟨.seq1 (.ref (.seq2 (.ws h.blanks h.noBlank) (not_comma h.noComma))), .seq2 (.ws h.blanks h.noBlank) (not_comma h.noComma)⟩

theorem targets_one {w s t : Str} {x : Target} (h : ReadsTarget M U P names full t x) (he : TargetsEnd M U w s) :
    TargetsSplit M U P names full w s t [x] t [] [] x [] :=
  ⟨by simp, rfl, h.1, h.2.1, he.nameEnd, fun k => h.2.2 k _ he.nameEnd, fun _ => .nil he.no_more.1, fun _ => .opt_none he.no_more.2⟩

theorem eats_comma {w1 w2 rest : Str} (hw1 : Blanks w1) (hw2 : Blanks w2) (hb : NoBlank rest) :
    Eats M U (.ref .comma) (w1 ++ ',' :: w2) rest :=
  (builds_comma (P := Unit) (names := fun _ => none) (full := []) (k := 0) hw1 hw2 hb).eats

theorem targets_trailing {w s t w1 : Str} {x : Target} (h : ReadsTarget M U P names full t x) (hw : Blanks w1)
    (he : TargetsEnd M U w s) : TargetsSplit M U P names full w s (t ++ (w1 ++ [','])) [x] t [] (w1 ++ [',']) x [] := by
  have hn : NameEnd (w1 ++ [','] ++ (w ++ s)) := by
    have := nameEnd_blanks (c := ',') (s := w ++ s) hw rfl
    simpa using this
  refine ⟨by simp, rfl, h.1, h.2.1, hn, fun k => h.2.2 k _ hn, fun _ => .nil ?_, fun _ => .opt_some ?_⟩
  · refine .seq2 (eats_comma hw he.blanks he.noBlank) he.noTarget (by simp)
  · exact .ofSeq (.step (.ws hw (rest := ',' :: (w ++ s)) (.cons rfl)) (.step (.lit _ _) (.nil _)))

theorem targets_cons {w s t w1 w2 t' a b c : Str} {x x' : Target} {xs ys : List Target} (h : ReadsTarget M U P names full t x)
    (hw1 : Blanks w1) (hw2 : Blanks w2) (h' : TargetsSplit M U P names full w s t' xs a b c x' ys) :
    TargetsSplit M U P names full w s (t ++ (w1 ++ (',' :: (w2 ++ t')))) (x :: xs) t (w1 ++ (',' :: (w2 ++ (a ++ b)))) c x (x' :: ys) := by
  have hn : NameEnd (w1 ++ (',' :: (w2 ++ (a ++ b))) ++ (c ++ (w ++ s))) := by
    have := nameEnd_blanks (c := ',') (s := w2 ++ (a ++ b) ++ (c ++ (w ++ s))) hw1 rfl
    simpa using this
  refine ⟨by simp [h'.text], by simp [h'.nodes], h.1, h.2.1, hn, fun k => h.2.2 k _ hn, fun k => ?_, h'.last⟩
  have h1 : ∀ k, Bd k (.seq [.ref .comma, .ref .target]) (w1 ++ (',' :: (w2 ++ a))) (b ++ (c ++ (w ++ s))) [.target x'] := fun k =>
    .ofSeq (.step (x := w1 ++ ',' :: w2) (r := a ++ (b ++ (c ++ (w ++ s)))) (builds_comma hw1 hw2 (h'.noBlank _))
      (.step (y := []) (r := b ++ (c ++ (w ++ s))) (h'.first _) (.nil _)))
  exact BuildsStar.cons (x := w1 ++ (',' :: (w2 ++ a))) (y := b) (h1 k) (by simp) (h'.more _) (by simp)

theorem target_var {n : Str} (hn : Name n) : ReadsTarget M U P names full n (.var n false none none) := by
  obtain ⟨c, s, hcs, hc, hc'⟩ := hn.start
  have hne := nameStart_ne hc
  refine ⟨by simp [hcs], fun u => ?_, fun k rest he => ?_⟩
  · rw [hcs]; exact .cons (by simp [isBlank, hne])
  · refine .reduced rfl (.alt (.there (.seq1 ?_) (.here (.plain (n := .var_def) (bs := [.str .name_id n]) ?_ ?_))))
    · rw [hcs]; exact .lit1 hne.2.2.2.2.1
    · exact .ofSeq (.step (.name hn he) (.step (.lit _ _) (.nil _)))
    · have : n.head? ≠ some '$' := by rw [hcs]; simpa using hne.2.2.1
      simp only [setup, this]; rfl

theorem target_tuple {w t w' : Str} {xs : List Target} (hw : Blanks w) (hw' : Blanks w')
    (h : ∀ w s, TargetsEnd M U w s → ∃ a b c x ys, TargetsSplit M U P names full w s t xs a b c x ys) :
    ReadsTarget M U P names full ('(' :: (w ++ (t ++ (w' ++ [')'])))) (.many xs) := by
  refine ⟨by simp, fun u => .cons rfl, fun k rest _ => ?_⟩
  obtain ⟨a, b, c, x, ys, h⟩ := h w' (')' :: rest) (.sym hw' ⟨rfl, by decide, rfl, by decide, rfl⟩)
  refine .reduced rfl (.alt (.here (.ofSeq (.step (x := ['(']) (.lit _ _) (.step (r := t ++ (w' ++ ')' :: rest)) (.ws hw ?_)
    (.step h.builds (.step (.ws hw' (.cons rfl)) (.step (.lit _ _) (.nil _)))))))))
  rw [h.text, List.append_assoc]
  exact h.noBlank _

mutual
theorem targets_reads {t : Str} {xs : List Target} : Targets t xs → ∀ w s, TargetsEnd M U w s →
    ∃ a b c x ys, TargetsSplit M U P names full w s t xs a b c x ys
  | .one h, _, _, he => ⟨_, _, _, _, _, targets_one (target_reads h) he⟩
  | .trailing h hw, _, _, he => ⟨_, _, _, _, _, targets_trailing (target_reads h) hw he⟩
  | .cons h hw1 hw2 h', w, s, he => by
    obtain ⟨a, b, c, x, ys, h'⟩ := targets_reads h' w s he
    exact ⟨_, _, _, _, _, targets_cons (target_reads h) hw1 hw2 h'⟩
theorem target_reads {t : Str} {x : Target} : OneTarget t x → ReadsTarget M U P names full t x
  | .var hn => target_var hn
  | .tuple hw h hw' => target_tuple hw hw' (targets_reads h)
end

theorem targets_builds {t w s : Str} {xs : List Target} (h : Targets t xs) (he : TargetsEnd M U w s) :
    Bd k (.ref .targets) t (w ++ s) [.target (.many xs)] ∧ ∀ u, NoBlank (t ++ u) := by
  obtain ⟨a, b, c, x, ys, h⟩ := targets_reads (M := M) (U := U) (P := P) (names := names) (full := full) h w s he
  refine ⟨h.builds, fun u => ?_⟩
  rw [h.text, List.append_assoc]
  exact h.noBlank _

/-! Tuples without parentheses -/

/-- What may follow an expression: no operator and no comma. -/
structure ValueEnd (M : Marks) (U : Uni) (rest : Str) : Prop where
  after : After M U 15 rest
  comma : ∀ ps, FailsSeq (rule M U) (.ref .ws :: .lit (s!!",") :: ps) rest

theorem ValueEnd.mk' {w s : Str} (ha : After M U 15 (w ++ s)) (hw : Blanks w) (hs : NoBlank s) (hc : s.head? ≠ some ',') :
    ValueEnd M U (w ++ s) := ⟨ha, fun _ => .after (.ws hw hs) (.head (not_comma hc))⟩

theorem reads_expr {t rest : Str} {e : Expr} (h : Written M names 15 t e) (hr : After M U 15 rest) :
    Bd k (.ref .expr) t rest [bx (.root none e)] :=
  builds_expr (reads15 (by omega) h (written_reads M U P names full h) _ _ hr)

theorem more_reads {t : Str} {es : List Expr} (h : More M names t es) : ∀ {rest : Str}, ValueEnd M U rest → ∃ x y fs e, t = x ++ y ∧
    es = fs ++ [e] ∧ (∀ k, Bs k (.seq [.ref .ws, .ref .expr, .ref .ws, .lit (s!!",")]) x (y ++ rest) (fs.map bx)) ∧
    (∀ k, Bd k (.opt (.seq [.ref .ws, .ref .expr])) y rest [bx e]) := by
  induction h with
  | @last w t e hw h =>
    intro rest hr
    refine ⟨[], w ++ t, [], .root none e, rfl, rfl, fun k => .nil ?_, fun k => .opt_some ?_⟩
    · refine .seq (.after (rest := t ++ rest) (.ws hw (written_noBlank h)) (.after (rest := rest) ?_ (hr.comma _)) (by simp))
      exact (reads_expr (P := P) (full := full) (k := 0) h hr.after).eats
    · exact .ofSeq (.step (r := t ++ rest) (.ws hw (written_noBlank h)) (.step (reads_expr h hr.after) (.nil _)))
  | @cons w t w1 t' e es hw h hw1 h' ih =>
    intro rest hr
    obtain ⟨x, y, fs, e', rfl, rfl, h1, h2⟩ := ih hr
    refine ⟨w ++ (t ++ (w1 ++ (',' :: x))), y, .root none e :: fs, e', by simp, by simp, fun k => ?_, h2⟩
    have h3 : ∀ k, Bd k (.seq [.ref .ws, .ref .expr, .ref .ws, .lit (s!!",")]) (w ++ (t ++ (w1 ++ [',']))) (x ++ (y ++ rest))
        [bx (.root none e)] := fun k =>
      .ofSeq (.step (r := t ++ (w1 ++ ',' :: (x ++ (y ++ rest)))) (.ws hw (written_noBlank h))
        (.step (r := w1 ++ ',' :: (x ++ (y ++ rest))) (reads_expr h (.closer (by simp) hw1)) (.step (r := ',' :: (x ++ (y ++ rest))) (.ws hw1 (.cons rfl)) (.step (.lit _ _) (.nil _)))))
    exact BuildsStar.cons (h3 k) (by simp) (h1 _) (by simp)

theorem augmented_reads {t rest : Str} {e : Expr} (h : Augmented M names t e) (hr : ValueEnd M U rest) :
    Bd k (.ref .expr_augment) t rest [bx (.root none e)] := by
  cases h with
  | one h =>
    refine .plain (bs := [bx e]) ?_ (by rw [attachQuals_one]; rfl)
    have h1 : ∀ k, Bd k (.ref .ifelse_test) t rest [bx e] := fun k => reads15 (by omega) h (written_reads M U P names full h) _ _ hr.after
    refine .alt (.there (.ref (.seq ?_)) (.here ?_))
    · exact .after (reads_expr (P := P) (full := full) (k := 0) h hr.after).eats (hr.comma _)
    · exact .reduced rfl (.ofSeq (.step (h1 _) (.step (.lit _ _) (.nil _))))
  | @tuple t w t' e es h hw hm =>
    obtain ⟨x, y, fs, e', rfl, rfl, h1, h2⟩ := more_reads (P := P) (full := full) hm hr
    refine .plain (bs := [bx (.tuple (.root none e :: (fs ++ [e'])))]) ?_ (by rw [attachQuals_one]; rfl)
    refine .alt (.here (.several (n := .expr_tuple) (bs := (.root none e :: (fs ++ [e'])).map bx) rfl ?_ (by simp) ?_))
    · refine .ofSeq (.step (r := w ++ ',' :: (x ++ (y ++ rest))) (reads_expr h (.closer (by simp) hw)) (.step (.ws hw (.cons rfl)) (.step (x := [',']) (.lit _ _)
        (.step (.star (h1 _)) (.step (h2 _) (.nil _)))))) ?_ ?_
      · simp
      · simp
    · rw [attachQuals_id (.bx _)]
      simp only [setup, setupExpr, asExprs_bx]; rfl

theorem augmented_noBlank {t s : Str} {e : Expr} (h : Augmented M names t e) : NoBlank (t ++ s) := by
  cases h with
  | one h => exact written_noBlank h
  | tuple h => rw [List.append_assoc]; exact written_noBlank h

variable [hM : MarksApart M U]

theorem Eol.stop {rest : Str} (h : Eol M rest) : ValueEnd M U rest := by
  refine .mk' (w := []) h.after .nil (h.noBlank U) ?_
  intro hc
  exact (h _ hc).ne U (a := ',') (by decide) rfl

theorem remark_stop {r rest : Str} (h : Remark M r) (hr : Eol M rest) : ValueEnd M U (r ++ rest) := by
  have ha := remark_after (U := U) h hr
  cases h with
  | none => exact hr.stop
  | @hash w s hw hs =>
    have : w ++ '#' :: s ++ rest = w ++ '#' :: (s ++ rest) := by simp
    rw [this] at ha ⊢; exact .mk' ha hw (.cons rfl) (by simp)
  | @dashes w s hw hs =>
    have : w ++ '-' :: '-' :: s ++ rest = w ++ '-' :: '-' :: (s ++ rest) := by simp
    rw [this] at ha ⊢; exact .mk' ha hw (.cons rfl) (by simp)

/-! Assignments -/

theorem builds_value {w x r rest : Str} {e : Expr} (hw : Blanks w) (h : Augmented M names x e) (hr : Remark M r) (he : Eol M rest) :
    Bd k (.ref .expr_assign) (w ++ (x ++ r)) rest [bx (.root none e)] :=
  .reduced rfl (.ofSeq (.step (r := x ++ (r ++ rest)) (.ws hw (augmented_noBlank h))
    (.step (.alt (.here (augmented_reads h (remark_stop hr he)))) (.step (remark_builds hr he) (.nil _)))))

theorem reads_assign {w t w1 w2 x r rest : Str} {ts : List Target} {e : Expr} (hw : Blanks w) (ht : Targets t ts) (hw1 : Blanks w1)
    (hw2 : Blanks w2) (h : Augmented M names x e) (hr : Remark M r) (he : Eol M rest) :
    Bd k (.ref .block_control) ('$' :: (w ++ (t ++ (w1 ++ ('=' :: (w2 ++ (x ++ r))))))) rest
      [.stmt (.assign (.many ts) none (.root none e))] := by
  have hte : TargetsEnd M U w1 ('=' :: (w2 ++ (x ++ (r ++ rest)))) := .sym hw1 ⟨rfl, by decide, rfl, by decide, rfl⟩
  have ht' := fun k => (targets_builds (P := P) (names := names) (full := full) (k := k) ht hte)
  refine .reduced rfl (.alt (.here (.plain (n := .block_assign) (bs := [.target (.many ts), bx (.root none e)]) ?_ rfl)))
  exact .ofSeq (.step (x := ['$']) (.ignored (n := .mark_eval) rfl (.lit _ _))
    (.step (r := t ++ (w1 ++ ('=' :: (w2 ++ (x ++ (r ++ rest)))))) (.ws hw ((ht' 0).2 _)) (.step (ht' _).1 (.step (.ws hw1 (.cons rfl))
    (.step (x := []) (r := '=' :: (w2 ++ (x ++ (r ++ rest)))) (.opt_none (.first 200 rfl)) (.step (.lit _ _) (.step (builds_value hw2 h hr he) (.nil _))))))))

theorem match_inplace {op s : Str}
    (h : op ∈ [s!!"//", s!!"%", s!!"<<", s!!">>", s!!"-", s!!"+", s!!"*", s!!"/", s!!"&", s!!"|", s!!"^"]) :
    reInplace.match? (op ++ '=' :: s) = some ('=' :: s) := by
  simp only [List.mem_cons, List.not_mem_nil, or_false] at h
  rcases h with rfl | rfl | rfl | rfl | rfl | rfl | rfl | rfl | rfl | rfl | rfl <;> rfl

theorem inplace_head {op s : Str}
    (h : op ∈ [s!!"//", s!!"%", s!!"<<", s!!">>", s!!"-", s!!"+", s!!"*", s!!"/", s!!"&", s!!"|", s!!"^"]) :
    ∃ c u, op ++ s = c :: u ∧ isBlank c = false ∧ c ≠ ',' ∧ nameStart c = false ∧ c ≠ '(' ∧ nameChar c = false := by
  simp only [List.mem_cons, List.not_mem_nil, or_false] at h
  rcases h with rfl | rfl | rfl | rfl | rfl | rfl | rfl | rfl | rfl | rfl | rfl <;>
    exact ⟨_, _, rfl, rfl, by decide, rfl, by decide, rfl⟩

theorem reads_inplace {w n w1 op w2 x r rest : Str} {e : Expr} (hw : Blanks w) (hn : Name n) (hw1 : Blanks w1)
    (ho : op ∈ [s!!"//", s!!"%", s!!"<<", s!!">>", s!!"-", s!!"+", s!!"*", s!!"/", s!!"&", s!!"|", s!!"^"])
    (hw2 : Blanks w2) (h : Augmented M names x e) (hr : Remark M r) (he : Eol M rest) :
    Bd k (.ref .block_control) ('$' :: (w ++ (n ++ (w1 ++ (op ++ ('=' :: (w2 ++ (x ++ r)))))))) rest
      [.stmt (.assign (.many [.var n true none none]) (some op) (.root none e))] := by
  obtain ⟨c, u, hu, hc⟩ := inplace_head (s := '=' :: (w2 ++ (x ++ (r ++ rest)))) ho
  have hte : TargetsEnd M U w1 (op ++ '=' :: (w2 ++ (x ++ (r ++ rest)))) := by rw [hu]; exact .sym hw1 hc
  have ht' := fun k => (targets_builds (P := P) (names := names) (full := full) (k := k) (.one (.var hn)) hte)
  refine .reduced rfl (.alt (.here (.plain (n := .block_assign)
    (bs := [.target (.many [.var n false none none]), .op op, bx (.root none e)]) ?_ rfl)))
  exact .ofSeq (.step (x := ['$']) (.ignored (n := .mark_eval) rfl (.lit _ _))
    (.step (r := n ++ (w1 ++ (op ++ '=' :: (w2 ++ (x ++ (r ++ rest)))))) (.ws hw ((ht' 0).2 _)) (.step (ht' _).1 (.step (.ws hw1 hte.noBlank)
    (.step (x := op) (r := '=' :: (w2 ++ (x ++ (r ++ rest)))) (.opt_some (.plain (n := .op_inplace) (bs := []) (.rx (match_inplace ho)) rfl))
      (.step (.lit _ _) (.step (builds_value hw2 h hr he) (.nil _))))))))

/-- After a name, not an assignment. -/
theorem no_assign {w n s v : Str} (hw : Blanks w) (hn : Name n) (hv : Blanks v) (hne : NameEnd (v ++ s))
    (hs : ∀ c, s.head? = some c → isBlank c = false ∧ c ≠ ',' ∧ c ≠ '=' ∧ (s!!"/%<>+*&|^").elem c = false)
    (hd : s.head? = some '-' → ∃ u, s = '-' :: '-' :: u) :
    Fl (.ref .block_assign) ('$' :: (w ++ (n ++ (v ++ s)))) := by
  have hnb : NoBlank s := fun c hc => (hs c hc).1
  have hnc : s.head? ≠ some ',' := fun hc => (hs _ hc).2.1 rfl
  have hf : Fl (.ref .comma) (v ++ s) := .ref (.seq2 (.ws hv hnb) (not_comma hnc))
  have hsp : TargetsSplit M U Unit (fun _ => none) [] v s n [.var n false none none] n [] [] (.var n false none none) [] :=
    ⟨by simp, rfl, (target_var (M := M) (U := U) (P := Unit) (names := fun _ => none) (full := []) hn).1,
      (target_var (M := M) (U := U) (P := Unit) (names := fun _ => none) (full := []) hn).2.1, hne,
      fun k => (target_var hn).2.2 k _ hne, fun _ => .nil (.seq1 hf), fun _ => .opt_none (.seq2 (.ws hv hnb) (not_comma hnc))⟩
  have he : Fl (.lit (s!!"=")) s := by
    cases s with
    | nil => exact .lit rfl
    | cons c s => exact .lit1 (hs c rfl).2.2.1
  refine .ref (.seq (.after (x := ['$']) (rest := w ++ (n ++ (v ++ s))) ⟨_, .ref (.lit _ _)⟩ (.after (.ws hw (hsp.noBlank _))
    (.after (x := n) (rest := v ++ s) (hsp.builds (k := 0)).eats (.after (x := v) (rest := s) (.ws hv hnb) ?_)))))
  by_cases hm : s.head? = some '-'
  · obtain ⟨u, rfl⟩ := hd hm
    refine .after (x := ['-']) (rest := '-' :: u) ?_ (.head (.lit1 (by decide)))
    exact (Builds.opt_some (P := Unit) (names := fun _ => none) (full := []) (k := 0)
      (Builds.plain (n := .op_inplace) (bs := []) (b := .op ['-']) (.rx rfl) rfl)).eats
  · refine .after (x := []) (rest := s) (.opt_none (.ref (.rx ?_))) (.head he)
    cases s with
    | nil => rfl
    | cons c s =>
      have h1 := (hs c rfl).2.2.2
      have h2 : c ≠ '-' := by simpa using hm
      simp only [List.elem_eq_mem, decide_eq_false_iff_not, List.mem_cons, List.not_mem_nil, or_false, not_or] at h1
      obtain ⟨a1, a2, a3, a4, a5, a6, a7, a8, a9⟩ := h1
      refine (alts_skip (RE.match?_word_none (by simp [List.isPrefixOf, Ne.symm a1]))).trans
        ((alts_skip (RE.match?_word_none (by simp [List.isPrefixOf, Ne.symm a2]))).trans
        ((alts_skip (RE.match?_word_none (by simp [List.isPrefixOf, Ne.symm a3]))).trans
        ((alts_skip (RE.match?_word_none (by simp [List.isPrefixOf, Ne.symm a4]))).trans ?_)))
      simp [RE.alts, RE.match?, RE.rests, a1, a5, a6, a7, a8, a9, h2]

theorem reads_call {w n t r rest : Str} {e : Expr} (hw : Blanks w) (hn : Name n) (h : Written M names 1 (n ++ t) e)
    (ht : ∀ c, t.head? = some c → (s!!"([.?!").elem c = true) (hr : Remark M r) (he : Eol M rest) :
    Bd k (.ref .block_control) ('$' :: (w ++ (n ++ (t ++ r)))) rest [.stmt (.exprBlock (.root none e))] := by
  have hx : Augmented M names (n ++ t) e := .one (reads_le h (written_reads M U P names full h) (by omega) (by omega)).2
  have hf : Fl (.ref .block_assign) ('$' :: (w ++ (n ++ (t ++ r))) ++ rest) := by
    cases t with
    | cons c t =>
      have hc := ht c rfl
      simp only [List.elem_eq_mem, decide_eq_true_eq, List.mem_cons, List.not_mem_nil, or_false] at hc
      have := no_assign (M := M) (U := U) (w := w) (n := n) (v := []) (s := c :: (t ++ (r ++ rest))) hw hn .nil
        (by intro d hd; simp only [List.nil_append, List.head?_cons, Option.some.injEq] at hd; subst hd
            rcases hc with rfl | rfl | rfl | rfl | rfl <;> rfl)
        (by intro d hd; simp only [List.head?_cons, Option.some.injEq] at hd; subst hd
            rcases hc with rfl | rfl | rfl | rfl | rfl <;> exact ⟨rfl, by decide, by decide, rfl⟩)
        (by intro hd; simp only [List.head?_cons, Option.some.injEq] at hd; subst hd; simp at hc)
      simpa using this
    | nil =>
      cases hr with
      | none =>
        have := no_assign (M := M) (U := U) (w := w) (n := n) (v := []) (s := rest) hw hn .nil (he.nameEnd U)
          (fun c hc => ⟨(he c hc).notBlank U, (he c hc).ne U, (he c hc).ne U, by
            have h := he c hc
            simp [h.ne U (a := '/'), h.ne U (a := '%'), h.ne U (a := '<'), h.ne U (a := '>'), h.ne U (a := '+'), h.ne U (a := '*'),
              h.ne U (a := '&'), h.ne U (a := '|'), h.ne U (a := '^')]⟩)
          (fun hc => absurd rfl ((he _ hc).ne U (a := '-')))
        simpa using this
      | @hash v s hv hs =>
        have := no_assign (M := M) (U := U) (w := w) (n := n) (v := v) (s := '#' :: (s ++ rest)) hw hn hv (nameEnd_blanks hv rfl)
          (by intro d hd; simp only [List.head?_cons, Option.some.injEq] at hd; subst hd; exact ⟨rfl, by decide, by decide, rfl⟩)
          (by simp)
        simpa using this
      | @dashes v s hv hs =>
        have := no_assign (M := M) (U := U) (w := w) (n := n) (v := v) (s := '-' :: '-' :: (s ++ rest)) hw hn hv (nameEnd_blanks hv rfl)
          (by intro d hd; simp only [List.head?_cons, Option.some.injEq] at hd; subst hd; exact ⟨rfl, by decide, by decide, rfl⟩)
          (by simp)
        simpa using this
  refine .reduced rfl (.alt (.there hf (.here (.plain (n := .block_expr) (bs := [bx (.root none e)]) ?_ (by rw [attachQuals_one]; rfl)))))
  exact .ofSeq (.step (x := ['$']) (.ignored (n := .mark_eval) rfl (.lit _ _)) (.step (builds_value hw hx hr he) (.nil _)))

end
end Verif
