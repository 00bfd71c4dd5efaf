import Verif.Lemmas.Steps

/-! The written form of an expression is read as the expression. -/

namespace Verif
open Py Spec

section
variable {M : Marks} {U : Uni} {P : Type} {names : Str → Option Char} {full : Str}

local notation "Bd" => Builds M U P names full
local notation "Bq" => BuildsSeq M U P names full
local notation "Bs" => BuildsStar M U P names full
local notation "Bm" => Many M U P names full
local notation "Fl" => Fails (rule M U)
local notation "Fq" => FailsSeq (rule M U)
local notation "Rd" => Reads M U P names full

/-! What is proved about the parts of expressions -/

variable (M U P names full)

def ReadsChain (l : Nat) (t : Str) (os : List Str) (es : List Expr) : Prop :=
  os.length = es.length ∧ ∀ k rest, After M U l rest → Bs k (contPeg l) t rest (chainB l os es)

def ReadsFilters (t : Str) (es : List Expr) : Prop :=
  ∀ k rest, After M U 9 rest →
    Bs k (.seq [.ref .ws, .lit (s!!":"), .ref .ws, .ref .filter]) t rest (es.map bx)

def ReadsFilterName (t : Str) (e : Expr) : Prop :=
  ∀ k rest, FiltEnd U rest → Bd k (.ref .factor_filt) t rest [bx e]

def ReadsTails (t : Str) (ts : List Tail) : Prop :=
  ∀ p b, TailLike M U P names full p b → (b = false → ∀ ns as, Tail.call ns as ∉ ts) →
    ∀ k rest, Fl p rest → NameEnd rest → Bs k p t rest (ts.map .tail)

def ReadsBound (t : Str) (e : Expr) : Prop :=
  ∀ k c s, (c = ':' ∨ c = ']') → Bd k (.ref .slice_value) t (c :: s) [.expr false e]

structure ArgsSplit (t : Str) (ns : List (Option Str)) (es : List Expr) (x y w : Str) (bs cs : List (Built P)) :
    Prop where
  text : t = x ++ (y ++ w)
  blanks : Blanks w
  nodes : argsB ns es = bs ++ cs
  starts : ∀ s, NoBlank (x ++ s)
  nonempty : x ≠ []
  first : ∀ k rest, Bd k (.ref .arg) x (y ++ (w ++ ')' :: rest)) bs
  others : ∀ k rest, Bs k (.seq [.ref .comma, .ref .arg]) y (w ++ ')' :: rest) cs

def ReadsArgs (t : Str) (ns : List (Option Str)) (es : List Expr) : Prop :=
  ns.length = es.length ∧ (ns = [] → t = []) ∧ (ns ≠ [] → ∃ x y w bs cs, ArgsSplit M U P names full t ns es x y w bs cs)

def ReadsArg (t : Str) (n : Option Str) (e : Expr) : Prop :=
  (∀ s, NoBlank (t ++ s)) ∧ t ≠ [] ∧ ∀ k w c s, Blanks w → (c = ')' ∨ c = ',') → Bd k (.ref .arg) t (w ++ c :: s) [argB n e]

def ReadsItems (t : Str) (es : List Expr) : Prop :=
  (∀ k rest, NoBlank rest → Fl (.seq [.ref .expr, .ref .comma]) rest →
    Bm k (.seq [.ref .expr, .ref .comma]) t rest (es.map bx)) ∧
  (∀ rest, NoBlank rest → NoBlank (t ++ rest)) ∧
  (es ≠ [] → t ≠ [] ∧ ∀ rest, Fq [.ref .expr, .ref .ws, .lit (s!!")")] (t ++ rest))

def ReadsLast (t : Str) (es : List Expr) : Prop :=
  ∀ c, (c = ')' ∨ c = ']' ∨ c = '}') → ∀ k s, Bd k (.opt (.seq [.ref .expr, .ref .ws])) t (c :: s) (es.map bx) ∧
    NoBlank (t ++ c :: s) ∧ Fl (.seq [.ref .expr, .ref .comma]) (t ++ c :: s)

def ReadsElems (t : Str) (es : List Expr) : Prop :=
  ∀ k w s, Blanks w → Bs k (.seq [.ref .comma, .ref .expr]) t (w ++ '}' :: s) (es.map bx) ∧
    ∃ u c s', t ++ (w ++ '}' :: s) = u ++ c :: s' ∧ Blanks u ∧ (c = '}' ∨ c = ',')

structure PairsSplit (t w' : Str) (es : List Expr) (x y : Str) (bs cs : List (Built P)) : Prop where
  text : t = x ++ y
  nodes : bs ++ cs = es.map bx
  starts : ∀ s, NoBlank (x ++ (y ++ s))
  front : ∀ k rest, Bs k (.seq [.ref .dict_pair, .ref .comma]) x (y ++ (w' ++ '}' :: rest)) bs
  last : ∀ k rest, Bd k (.opt (.seq [.ref .dict_pair, .ref .ws])) (y ++ w') ('}' :: rest) cs

def ReadsPairs (t : Str) (es : List Expr) : Prop :=
  (es = [] → t = []) ∧
  (es ≠ [] → ∀ w', Blanks w' → ∃ x y bs cs, PairsSplit M U P names full t w' es x y bs cs)

def ReadsParts (q : Option Char) (t : Str) (es : List Expr) : Prop :=
  (∀ c, q = some c → c = '\'' ∨ c = '"') → ∃ bs : List (Built P), asParts (attachQuals bs) = .ok es ∧ (∀ q, bs.head? ≠ some (.qual q)) ∧
    ∀ k rest, PartsEnd M q rest → Bm k (.alt [.ref .escape, .ref .embedding, .ref (textNT q)]) t rest bs

variable {M U P names full} {k : Nat}

/-! Small parts -/

theorem written_ne {l : Nat} {t : Str} {e : Expr} (h : Written M names l t e) : t ≠ [] := by
  obtain ⟨c, u, rfl, _⟩ := written_first h
  simp

theorem tails_nameEnd {t rest : Str} {ts : List Tail} (h : Tails M names t ts) (hr : NameEnd rest) : NameEnd (t ++ rest) := by
  by_cases hne : ts = []
  · subst hne
    cases h
    exact hr
  · obtain ⟨c, s, rfl, hc⟩ := tails_head h hne
    intro d hd
    simp only [List.cons_append, List.head?_cons, Option.some.injEq] at hd
    rw [← hd]
    rcases hc with rfl | rfl | rfl <;> rfl

theorem nots_reads : ∀ {n : Nat} {t : Str}, Nots M names n t → ∀ (k : Nat) (t' rest : Str), Opens t' → NoBlank (t' ++ rest) →
    NameEnd rest → Bs k (.seq [.ref .not, .ref .space]) t (t' ++ rest) (List.replicate n .notKw)
  | _, _, .nil, k, t', rest, ho, _, hr => .nil (not_nots ho hr)
  | _, _, .cons (n := n) (w := w) (t := t) hw hne h, k, t', rest, ho, hb, hr => by
    have hb' : NoBlank (t ++ (t' ++ rest)) := by
      cases h with
      | nil => exact hb
      | cons _ _ _ => exact .cons rfl
    exact .cons (bs := [.notKw]) (builds_not hw hne hb') (by simp) (nots_reads h _ _ _ ho hb hr) (by simp)

/-! Chains -/

theorem chainB_cons {l : Nat} {o : Str} {os : List Str} {e : Expr} {es : List Expr} :
    chainB (P := P) l (o :: os) (e :: es) = opB l o ++ [bx e] ++ chainB l os es := by
  simp [chainB]

theorem isChain_of_sep {l : Nat} {w1 op w2 t : Str} (h : Sep l w1 op w2 t) : isChain l = true := by
  have := h.mem
  unfold binOps at this
  split at this <;> first | rfl | (simp at this)

theorem ReadsChain.step {l : Nat} {w1 op o w2 t t' : Str} {e : Expr} {os : List Str} {es : List Expr}
    (hs : Sep (l + 1) w1 op w2 t) (ho : OpForm op o) (hw : Written M names l t e) (h : Rd l t e) (hc : Chain M names (l + 1) t' os es)
    (h' : ReadsChain M U P names full (l + 1) t' os es) :
    ReadsChain M U P names full (l + 1) (w1 ++ (o ++ (w2 ++ (t ++ t')))) (op :: os) (e :: es) := by
  refine ⟨by simp [h'.1], ?_⟩
  intro k rest ha
  have hends : Ends M U l t (t' ++ rest) := by
    cases hc with
    | nil => exact ha.toEnds (by omega)
    | @cons _ w1' op' o' w2' u u' e' os' es' hs' ho' hw' hc' =>
      have := After.sep (M := M) (U := U) (s := u' ++ rest) hs' ho' (written_first hw')
      have := this.toEnds (t := t) (l' := l) (by omega)
      simpa using this
  have hn : NameEnd (t' ++ rest) := by
    cases t' with
    | nil => exact ha.nameEnd
    | cons c t' => intro d hd; exact (chain_joins hc).ends d hd
  have hx : ∀ k, Bd k (.ref (lvlNT l)) t (t' ++ rest) [bx e] := fun k => h k _ hends
  have hb := builds_cont (k := k) hs ho (written_first hw) hn hx
  rw [chainB_cons]
  refine .cons hb ?_ (h'.2 _ _ ha) (by simp)
  have := written_ne hw
  simp [this]

/-! Brackets -/

theorem reads15 {l : Nat} {t : Str} {e : Expr} (hl : l ≤ 15) (hw : Written M names l t e) (h : Rd l t e) (k : Nat) (rest : Str)
    (ha : After M U 15 rest) : Bd k (.ref .ifelse_test) t rest [bx e] :=
  (reads_le hw h hl (by omega)).1 k rest ha

theorem reads8 {t : Str} {e : Expr} (h : Rd 8 t e) (k : Nat) (rest : Str)
    (ha : After M U 8 rest) : Bd k (.ref .or_expr) t rest [bx e] := h k rest ha

theorem ReadsArgs.opt {t : Str} {ns : List (Option Str)} {es : List Expr} (h : ReadsArgs M U P names full t ns es) :
    ∀ (k : Nat) (rest : Str), Bd k (.opt (.seq [.ref .args, .ref .ws])) t (')' :: rest) (argsB ns es) ∧ NoBlank (t ++ ')' :: rest) := by
  intro k rest
  obtain ⟨h0, h1, h2⟩ := h
  cases ns with
  | nil =>
    have := h1 rfl
    subst this
    exact ⟨.opt_none (.first 200 rfl), .cons rfl⟩
  | cons n ns =>
    obtain ⟨x, y, w, bs, cs, h⟩ := h2 (by simp)
    rw [h.text, h.nodes]
    refine ⟨builds_args h.blanks (fun k => h.first k rest) (fun k => h.others k rest), ?_⟩
    rw [List.append_assoc]
    exact h.starts _

theorem ReadsArgs.last {t w : Str} {n : Option Str} {e : Expr} (h : ReadsArg M U P names full t n e) (hw : Blanks w) :
    ReadsArgs M U P names full (t ++ w) [n] [e] := by
  refine ⟨rfl, by simp, fun _ => ⟨t, [], w, [argB n e], [], ⟨rfl, hw, rfl, h.1, h.2.1, ?_, ?_⟩⟩⟩
  · intro k rest
    exact h.2.2 k w ')' rest hw (.inl rfl)
  · intro k rest
    exact .nil (.seq1 (no_comma hw rfl (by decide)))

theorem ReadsArgs.step {t w1 w2 t' : Str} {n : Option Str} {e : Expr} {ns : List (Option Str)} {es : List Expr}
    (h : ReadsArg M U P names full t n e) (hw1 : Blanks w1) (hw2 : Blanks w2) (h' : ReadsArgs M U P names full t' ns es)
    (hne : ns ≠ []) : ReadsArgs M U P names full (t ++ (w1 ++ (',' :: (w2 ++ t')))) (n :: ns) (e :: es) := by
  obtain ⟨x, y, w, bs, cs, hs⟩ := h'.2.2 hne
  refine ⟨by simp [h'.1], by simp, fun _ => ⟨t, w1 ++ (',' :: (w2 ++ (x ++ y))), w, [argB n e], bs ++ cs,
    ⟨?_, hs.blanks, ?_, h.1, h.2.1, ?_, ?_⟩⟩⟩
  · rw [hs.text]; simp
  · rw [argsB, hs.nodes]; rfl
  · intro k rest
    have := h.2.2 k w1 ',' (w2 ++ (x ++ (y ++ (w ++ ')' :: rest)))) hw1 (.inr rfl)
    simpa using this
  · intro k rest
    have hx : Bd k (.seq [.ref .comma, .ref .arg]) (w1 ++ (',' :: (w2 ++ x))) (y ++ (w ++ ')' :: rest)) bs :=
      .ofSeq (.step (r := x ++ (y ++ (w ++ ')' :: rest))) (builds_comma hw1 hw2 (hs.starts _)) (.step (hs.first _ rest) (.nil _)))
    exact .cons hx (by simp) (hs.others _ rest) (by simp)

theorem ReadsArg.positional {t : Str} {e : Expr} (hw : Written M names 15 t e) (h : Rd 15 t e) :
    ReadsArg M U P names full t none (.root none e) := by
  refine ⟨fun s => written_noBlank hw, written_ne hw, ?_⟩
  intro k w c s hb hc
  refine builds_posarg (no_kwarg hw hb hc) (fun k => h k _ ?_)
  exact After.closer (by rcases hc with h | h <;> simp [h]) hb

theorem ReadsArg.keyword {n w1 w2 t : Str} {e : Expr} (hn : Name n) (hw1 : Blanks w1) (hw2 : Blanks w2)
    (hw : Written M names 15 t e) (h : Rd 15 t e) :
    ReadsArg M U P names full (n ++ (w1 ++ ('=' :: (w2 ++ t)))) (some n) (.root none e) := by
  refine ⟨fun s => ?_, by simp, ?_⟩
  · obtain ⟨c, u, rfl, hc, _⟩ := hn.start
    exact .cons (nameStart_cases hc).1
  intro k w c s hb hc
  refine builds_kwarg hn hw1 hw2 (written_noBlank hw) (fun k => h k _ ?_)
  exact After.closer (by rcases hc with h | h <;> simp [h]) hb

theorem ReadsItems.nil : ReadsItems M U P names full [] [] :=
  ⟨fun _ _ _ h => .nil h, fun _ h => h, fun h => absurd rfl h⟩

theorem ReadsItems.step {t w1 w2 t' : Str} {e : Expr} {es : List Expr} (hw : Written M names 15 t e) (h : Rd 15 t e)
    (hw1 : Blanks w1) (hw2 : Blanks w2) (h' : ReadsItems M U P names full t' es) :
    ReadsItems M U P names full (t ++ (w1 ++ (',' :: (w2 ++ t')))) (.root none e :: es) := by
  refine ⟨?_, ?_, fun _ => ⟨by simp, ?_⟩⟩
  · intro k rest hb hf
    exact .cons (bs := [bx (.root none e)]) (fun k => builds_item hw1 hw2 (h'.2.1 _ hb) (reads15 (by omega) hw h))
      (by simp) (h'.1 _ _ hb hf)
  · intro rest _
    rw [List.append_assoc]
    exact written_noBlank hw
  · intro rest
    have ha : After M U 15 (w1 ++ ',' :: (w2 ++ (t' ++ rest))) := .closer (by simp) hw1
    refine .after (builds_expr (h 0 _ ha)).eats (.after (.ws hw1 (rest := ',' :: (w2 ++ (t' ++ rest))) (.cons rfl)) (.head (.lit1 (by decide)))) (by simp)

theorem ReadsLast.none : ReadsLast M U P names full [] [] := by
  intro c hc k s
  refine ⟨.opt_none ?_, .cons ?_, ?_⟩
  · rcases hc with rfl | rfl | rfl <;> exact .first 200 rfl
  · rcases hc with rfl | rfl | rfl <;> rfl
  · rcases hc with rfl | rfl | rfl <;> exact .first 200 rfl

theorem ReadsLast.one {t w : Str} {e : Expr} (hw : Written M names 15 t e) (h : Rd 15 t e) (hb : Blanks w) :
    ReadsLast M U P names full (t ++ w) [.root .none e] := by
  intro c hc k s
  rw [List.append_assoc]
  exact ⟨builds_last hb hc (reads15 (by omega) hw h), written_noBlank hw, no_item hb hc (reads15 (by omega) hw h)⟩

theorem ReadsElems.nil : ReadsElems M U P names full [] [] := by
  intro k w s hw
  exact ⟨.nil (.seq1 (no_comma hw rfl (by decide))), _, _, _, rfl, hw, .inl rfl⟩

theorem ReadsElems.step {w1 w2 t t' : Str} {e : Expr} {es : List Expr} (hw1 : Blanks w1) (hw2 : Blanks w2)
    (hw : Written M names 15 t e) (h : Rd 15 t e) (h' : ReadsElems M U P names full t' es) :
    ReadsElems M U P names full (w1 ++ (',' :: (w2 ++ (t ++ t')))) (.root none e :: es) := by
  intro k w s hb
  refine ⟨?_, w1, ',', w2 ++ (t ++ (t' ++ (w ++ '}' :: s))), by simp, hw1, .inr rfl⟩
  have ha : After M U 15 (t' ++ (w ++ '}' :: s)) := by
    obtain ⟨_, u, c, s', h1, h2, h3⟩ := h' 0 w s hb
    rw [h1]
    exact .closer (by rcases h3 with h | h <;> simp [h]) h2
  exact .cons (bs := [bx (.root none e)]) (builds_elem hw1 hw2 (written_noBlank hw) (fun k => h k _ ha)) (by simp)
    (h' _ _ _ hb).1 (by simp)

theorem ReadsPairs.nil : ReadsPairs M U P names full [] [] := ⟨fun _ => rfl, fun h => absurd rfl h⟩

theorem ReadsPairs.last {t w1 w2 v : Str} {ek ev : Expr} (hwk : Written M names 8 t ek) (hk : Rd 8 t ek)
    (hw1 : Blanks w1) (hw2 : Blanks w2) (hwv : Written M names 15 v ev) (hv : Rd 15 v ev) :
    ReadsPairs M U P names full (t ++ (w1 ++ (':' :: (w2 ++ v)))) [.root none ek, .root none ev] := by
  refine ⟨by simp, fun _ w' hw' => ⟨[], t ++ (w1 ++ (':' :: (w2 ++ v))), [], [bx (.root none ek), bx (.root none ev)],
    ⟨rfl, rfl, ?_, ?_, ?_⟩⟩⟩
  · intro s
    rw [List.nil_append, List.append_assoc]
    exact written_noBlank hwk
  · intro k rest
    have ha : After M U 15 (w' ++ '}' :: rest) := .closer (by simp) hw'
    exact .nil (.seq2 (builds_pair (k := 0) hw1 hw2 (written_noBlank hwv) hk (fun k => hv k _ ha)).eats
      (no_comma hw' rfl (by decide)))
  · intro k rest
    have ha : After M U 15 (w' ++ '}' :: rest) := .closer (by simp) hw'
    exact .opt_some (.ofSeq (.step (builds_pair hw1 hw2 (written_noBlank hwv) hk (fun k => hv k _ ha))
      (.step (.ws hw' (.cons rfl)) (.nil _))))

theorem ReadsPairs.step {t w1 w2 v w3 w4 t' : Str} {ek ev : Expr} {es : List Expr} (hwk : Written M names 8 t ek) (hk : Rd 8 t ek)
    (hw1 : Blanks w1) (hw2 : Blanks w2) (hwv : Written M names 15 v ev) (hv : Rd 15 v ev) (hw3 : Blanks w3) (hw4 : Blanks w4)
    (h' : ReadsPairs M U P names full t' es) (hne : es ≠ []) :
    ReadsPairs M U P names full (t ++ (w1 ++ (':' :: (w2 ++ (v ++ (w3 ++ (',' :: (w4 ++ t'))))))))
      (.root none ek :: .root none ev :: es) := by
  refine ⟨by simp, fun _ w' hw' => ?_⟩
  obtain ⟨x, y, bs, cs, hs⟩ := h'.2 hne w' hw'
  refine ⟨t ++ (w1 ++ (':' :: (w2 ++ (v ++ (w3 ++ (',' :: (w4 ++ x))))))), y, bx (.root none ek) :: bx (.root none ev) :: bs, cs,
    ⟨?_, ?_, ?_, ?_, hs.last⟩⟩
  · rw [hs.text]; simp
  · simp [hs.nodes]
  · intro s
    rw [List.append_assoc]
    exact written_noBlank hwk
  · intro k rest
    have ha : After M U 15 (w3 ++ (',' :: (w4 ++ (x ++ (y ++ (w' ++ '}' :: rest)))))) := .closer (by simp) hw3
    have hx : Bd k (.seq [.ref .dict_pair, .ref .comma]) (t ++ (w1 ++ (':' :: (w2 ++ (v ++ (w3 ++ (',' :: w4)))))))
        (x ++ (y ++ (w' ++ '}' :: rest))) [bx (.root none ek), bx (.root none ev)] :=
      .ofSeq (.step (builds_pair hw1 hw2 (written_noBlank hwv) hk (fun k => hv k _ ha))
        (.step (builds_comma hw3 hw4 (hs.starts _)) (.nil _)))
    exact .cons (bs := [bx (.root none ek), bx (.root none ev)]) hx (by simp) (hs.front _ rest) (by simp)

/-! Contents of strings -/

theorem PartsEnd.quote {q : Char} {rest : Str} (h : q = '\'' ∨ q = '"') : PartsEnd M (some q) (q :: rest) := by
  intro c hc
  simp only [List.head?_cons, Option.some.injEq] at hc
  subst hc
  rcases h with rfl | rfl
  · exact ⟨by decide, by decide, by decide, by simp [lineChar, excluded], rfl, rfl⟩
  · exact ⟨by decide, by decide, by decide, by simp [lineChar, excluded], rfl, rfl⟩

theorem excluded_special {q : Option Char} {c : Char} (h : c = '$' ∨ c = '{' ∨ c = '}') : lineChar M (excluded q) c = false := by
  cases q with
  | none => rcases h with rfl | rfl | rfl <;> simp [lineChar, excluded]
  | some d => simp only [excluded]; split <;> rcases h with rfl | rfl | rfl <;> simp [lineChar]

/-- The head of the following parts or of the text after them. -/
theorem head_append {t rest : Str} {p : Char → Prop} (h1 : ∀ c, t.head? = some c → p c) (h2 : ∀ c, rest.head? = some c → p c) :
    ∀ c, (t ++ rest).head? = some c → p c := by
  cases t with
  | nil => exact h2
  | cons a t => intro c hc; exact h1 c hc

/-- A node that is not followed by a qualifier. -/
theorem attachQuals_next {b : Built P} {bs : List (Built P)} (h : ∀ q, bs.head? ≠ some (.qual q)) :
    attachQuals (b :: bs) = b :: attachQuals bs := by
  rw [attachQuals]
  intro _ _ q _ _ hb
  rw [hb] at h
  exact h q rfl

theorem ReadsParts.nil {q : Option Char} : ReadsParts M U P names full q [] [] :=
  fun _ => ⟨[], rfl, by simp, fun _ _ h => .nil (parts_stop h)⟩

theorem ReadsParts.text {q : Option Char} {s v t : Str} {es : List Expr} (hne : s ≠ []) (hs : ∀ c ∈ s, plainChar M q c)
    (hv : pieceValue names q s = some v) (h : ReadsParts M U P names full q t es)
    (ht : ∀ c, t.head? = some c → c = '$' ∨ c = '{' ∨ c = '}') :
    ReadsParts M U P names full q (s ++ t) (.static v :: es) := by
  intro hq
  obtain ⟨bs, h1, h2, h3⟩ := h hq
  refine ⟨pieceB q v :: bs, ?_, by simp [pieceB], ?_⟩
  · rw [attachQuals_next h2]; simp only [pieceB, asParts, h1]; rfl
  · intro k rest hr
    refine .cons (bs := [pieceB q v]) (fun k => builds_piece hq hne hs hv ?_) hne (h3 _ _ hr)
    exact head_append (fun c hc => excluded_special (ht c hc)) (fun c hc => (hr c hc).2.2.2.1)

theorem ReadsParts.doubled {q : Option Char} {c : Char} {t : Str} {es : List Expr} (hc : c = '$' ∨ c = '{' ∨ c = '}')
    (h : ReadsParts M U P names full q t es) : ReadsParts M U P names full q (c :: c :: t) (.static [c] :: es) := by
  intro hq
  obtain ⟨bs, h1, h2, h3⟩ := h hq
  refine ⟨.str .escape [c] :: bs, ?_, by simp, ?_⟩
  · rw [attachQuals_next h2]; simp only [asParts, h1]; rfl
  · intro k rest hr
    exact .cons (bs := [.str .escape [c]]) (fun k => builds_doubled hc) (by simp) (h3 _ _ hr)

theorem ReadsParts.braces {q : Option Char} {w x w' t : Str} {e : Expr} {es : List Expr} (hb : Blanks w)
    (hw : Written M names 15 x e) (hx : Rd 15 x e) (hb' : Blanks w') (ho : w = [] → x.head? ≠ some '{')
    (h : ReadsParts M U P names full q t es) (ht : ∀ c, t.head? = some c → c ≠ '?' ∧ c ≠ '!') :
    ReadsParts M U P names full q ('{' :: (w ++ (x ++ (w' ++ ('}' :: t))))) (.root none e :: es) := by
  intro hq
  obtain ⟨bs, h1, h2, h3⟩ := h hq
  refine ⟨bx (.root none e) :: bs, ?_, by simp [bx], ?_⟩
  · rw [attachQuals_next h2]; simp only [bx, asParts, h1]; rfl
  · intro k rest hr
    refine .cons (bs := [bx (.root none e)]) (fun k => builds_braces hb hb' ho (fun s => written_noBlank hw) ?_ (reads15 (by omega) hw hx))
      (by simp) (h3 _ _ hr)
    refine head_append ht ?_
    intro c hc
    have := (hr c hc).2.2.2.2.2
    simp only [List.elem_eq_mem, List.mem_cons, List.not_mem_nil, or_false, decide_eq_false_iff_not, not_or] at this
    exact ⟨this.2.2.2.1, this.2.2.2.2⟩

theorem ReadsParts.var {q : Option Char} {n t' t : Str} {ts : List Tail} {es : List Expr} (hn : Name n)
    (hw : Tails M names t' ts) (ht' : ReadsTails M U P names full t' ts)
    (h : ReadsParts M U P names full q t es)
    (ht : ∀ c, t.head? = some c → nameChar c = false ∧ (s!!"([.?!").elem c = false) :
    ReadsParts M U P names full q ('$' :: (n ++ (t' ++ t))) (.root none (varExpr n ts) :: es) := by
  intro hq
  obtain ⟨bs, h1, h2, h3⟩ := h hq
  refine ⟨bx (.root none (varExpr n ts)) :: bs, ?_, by simp [bx], ?_⟩
  · rw [attachQuals_next h2]; simp only [bx, asParts, h1]; rfl
  · intro k rest hr
    have hh : ∀ c, (t ++ rest).head? = some c → nameChar c = false ∧ (s!!"([.?!").elem c = false :=
      head_append ht (fun c hc => (hr c hc).2.2.2.2)
    have he : NameEnd (t ++ rest) := .of hh
    exact .cons (bs := [bx (.root none (varExpr n ts))])
      (fun k => builds_evar hn (tails_nameEnd hw he) hh (fun k => ht' _ true tailLike_trailer (by simp) k _ (no_trailer hh).1 he))
      (by simp) (h3 _ _ hr)

/-- Braces with a qualifier after them. -/
theorem builds_bracesQual {q : Option Char} {w x w' rest : Str} {e : Expr} {a : Qual} (hw : Blanks w) (hw' : Blanks w')
    (hx : w = [] → x.head? ≠ some '{') (hb : ∀ s, NoBlank (x ++ s))
    (h15 : ∀ k rest, After M U 15 rest → Bd k (.ref .ifelse_test) x rest [bx e]) :
    Bd k (.alt [.ref .escape, .ref .embedding, .ref (textNT q)]) ('{' :: (w ++ (x ++ (w' ++ ('}' :: qualText (some a)))))) rest
      [bx (.root none e), .qual a] := by
  refine .alt (.there (no_escape (s := w ++ (x ++ (w' ++ ('}' :: qualText (some a)))) ++ rest) ?_) (.here (.reduced rfl (.alt (.here (.reduced rfl ?_))))))
  · intro h0
    exfalso
    cases w with
    | nil =>
      cases x with
      | nil => exact absurd (hb [' '] ' ' rfl) (by decide)
      | cons a x =>
        simp only [List.nil_append, List.cons_append, List.head?_cons] at h0
        exact hx rfl h0
    | cons a w =>
      simp only [List.cons_append, List.head?_cons, Option.some.injEq] at h0
      rcases hw a (by simp) with h | h <;> rw [h] at h0 <;> exact absurd h0 (by decide)
  · exact .ofSeq (.step (.lit _ _) (.step (.ws hw (hb (w' ++ '}' :: (qualText (some a) ++ rest)))) (.step (builds_augment hw' (.cons rfl) (by simp)
      (fun k => h15 k (w' ++ '}' :: (qualText (some a) ++ rest)) (.closer (by simp) hw'))) (.step (.ws hw' (rest := '}' :: (qualText (some a) ++ rest)) (.cons rfl))
        (.step (.lit _ _) (.step (bs := [.qual a]) (builds_qual (q := some a) (rest := rest) (by simp)) (.nil _)))))))

theorem ReadsParts.bracesQual {q : Option Char} {w x w' t : Str} {e : Expr} {a : Qual} {es : List Expr} (hb : Blanks w)
    (hw : Written M names 15 x e) (hx : Rd 15 x e) (hb' : Blanks w') (ho : w = [] → x.head? ≠ some '{')
    (h : ReadsParts M U P names full q t es) :
    ReadsParts M U P names full q ('{' :: (w ++ (x ++ (w' ++ ('}' :: (qualText (some a) ++ t))))))
      (.root (some a) e :: .static [] :: es) := by
  intro hq
  obtain ⟨bs, h1, h2, h3⟩ := h hq
  refine ⟨[bx (.root none e), .qual a] ++ bs, ?_, by simp [bx], ?_⟩
  · simp only [bx, flag, List.cons_append, List.nil_append, attachQuals, asParts, h1]; rfl
  · intro k rest hr
    exact Many.cons (bs := [bx (.root none e), .qual a]) (fun k => builds_bracesQual (q := q) (a := a) (rest := t ++ rest) hb hb' ho (fun s => written_noBlank hw)
      (reads15 (by omega) hw hx)) (by simp) (h3 _ _ hr)

/-- A variable with a qualifier after it. -/
theorem builds_evarQual {q : Option Char} {n t' rest : Str} {ts : List Tail} {a : Qual} (hn : Name n)
    (he : NameEnd (t' ++ (qualText (some a) ++ rest)))
    (h : ∀ k, Bs k (.ref .trailer) t' (qualText (some a) ++ rest) (ts.map .tail)) :
    Bd k (.alt [.ref .escape, .ref .embedding, .ref (textNT q)]) ('$' :: (n ++ (t' ++ qualText (some a)))) rest
      [bx (.root none (.factor (.varUse n none) ts (some a)))] := by
  obtain ⟨c, s, hcs, hc, _⟩ := hn.start
  have hne := nameStart_ne hc
  have hv : ∀ k, Bd k (.ref .factor_var) (n ++ (t' ++ qualText (some a))) rest [bx (.factor (.varUse n none) ts (some a))] := by
    intro k
    refine .several (bs := bx (.varUse n none) :: (ts.map .tail ++ qualB (some a))) rfl ?_ (by simp [qualB]) ?_
    · exact .ofSeq (.step (builds_var hn (by simpa using he)) (.step (.star (h _)) (.step (builds_qual (q := some a) (by simp)) (.nil _))))
    · rw [attachQuals_factor (.inr (by simp))]
      simp only [setup, setupExpr, bx, asTails_qual]; rfl
  have hev : ∀ k, Bd k (.ref .expr_var) (n ++ (t' ++ qualText (some a))) rest [bx (.root none (.factor (.varUse n none) ts (some a)))] := by
    intro k
    refine .plain (bs := [bx (.factor (.varUse n none) ts (some a))]) ?_ (by rw [attachQuals_one]; rfl)
    exact .ofSeq (.step (hv _) (.step (.lit _ _) (.nil _)))
  have hnd : Fl (.ref .mark_eval) ((n ++ (t' ++ qualText (some a))) ++ rest) := by rw [hcs]; exact .ref (.lit1 hne.2.2.1)
  refine .alt (.there (no_escape (s := n ++ (t' ++ qualText (some a)) ++ rest) ?_) (.here (.reduced rfl (.alt (.there (.first 200 rfl) (.here (.reduced rfl ?_)))))))
  · intro h0
    rw [hcs] at h0
    simp only [List.cons_append, List.head?_cons, Option.some.injEq] at h0
    exact absurd h0 hne.2.2.1
  · exact .ofSeq (.step (.ignored (n := .mark_eval) rfl (.lit _ _)) (.step (.not hnd) (.step (hev _) (.nil _))))

theorem ReadsParts.varQual {q : Option Char} {n t' t : Str} {ts : List Tail} {a : Qual} {es : List Expr} (hn : Name n)
    (hw : Tails M names t' ts) (ht' : ReadsTails M U P names full t' ts)
    (h : ReadsParts M U P names full q t es) :
    ReadsParts M U P names full q ('$' :: (n ++ (t' ++ (qualText (some a) ++ t))))
      (.root none (.factor (.varUse n none) ts (some a)) :: es) := by
  intro hq
  obtain ⟨bs, h1, h2, h3⟩ := h hq
  refine ⟨bx (.root none (.factor (.varUse n none) ts (some a))) :: bs, ?_, by simp [bx], ?_⟩
  · rw [attachQuals_next h2]; simp only [bx, asParts, h1]; rfl
  · intro k rest hr
    have hh : ∀ s, NameEnd (qualText (some a) ++ s) := by
      intro s c hc
      cases a <;> · simp only [qualText, List.cons_append, List.head?_cons, Option.some.injEq] at hc; rw [← hc]; rfl
    have hf : ∀ s, Fl (.ref .trailer) (qualText (some a) ++ s) := by
      intro s
      cases a <;> exact .first 200 rfl
    exact Many.cons (bs := [bx (.root none (.factor (.varUse n none) ts (some a)))])
      (fun k => builds_evarQual (q := q) (a := a) (rest := t ++ rest) hn (tails_nameEnd hw (hh _)) (fun k => ht' _ true tailLike_trailer (by simp) k _ (hf _) (hh _)))
      (by simp) (h3 _ _ hr)

/-! Calls, indices, members -/

theorem ReadsTails.nil : ReadsTails M U P names full [] [] := fun _ _ _ _ _ _ h _ => .nil h

theorem no_calls {b : Bool} {t : Tail} {ts : List Tail} (h : b = false → ∀ ns as, Tail.call ns as ∉ t :: ts) :
    b = false → ∀ ns as, Tail.call ns as ∉ ts := fun hb ns as hm => h hb ns as (List.mem_cons_of_mem _ hm)

theorem ReadsTails.call {w t t' : Str} {ns : List (Option Str)} {es : List Expr} {ts : List Tail} (hw : Blanks w)
    (ha : ReadsArgs M U P names full t ns es) (h : ReadsTails M U P names full t' ts) :
    ReadsTails M U P names full ('(' :: (w ++ (t ++ (')' :: t')))) (.call ns es :: ts) := by
  intro p b hp hc k rest hf he
  have hb : b = true := by
    cases b with
    | true => rfl
    | false => exact absurd (by simp) (hc rfl ns es)
  exact .cons (bs := [.tail (.call ns es)]) (hp.call hb _ _ _ _ (builds_call ha.1 hw (ha.opt 0 _).2 (fun k => (ha.opt k _).1)))
    (by simp) (h p b hp (no_calls hc) _ _ hf he) (by simp)

theorem ReadsTails.index {w t w' t' : Str} {e : Expr} {ts : List Tail} (hb : Blanks w) (hw : Written M names 8 t e)
    (hx : Rd 8 t e) (hb' : Blanks w') (h : ReadsTails M U P names full t' ts) :
    ReadsTails M U P names full ('[' :: (w ++ (t ++ (w' ++ (']' :: t'))))) (.index [.root none e] :: ts) := by
  intro p b hp hc k rest hf he
  exact .cons (bs := [.tail (.index [.root none e])]) (hp.index _ _ _ _ (builds_index hb hb' (fun s => written_noBlank hw)
    (reads8 hx) (reads15 (by omega) hw hx))) (by simp) (h p b hp (no_calls hc) _ _ hf he) (by simp)

theorem ReadsTails.slice {t1 t2 t' : Str} {e1 e2 : Expr} {ts : List Tail} (h1 : ReadsBound M U P names full t1 e1)
    (h2 : ReadsBound M U P names full t2 e2) (h : ReadsTails M U P names full t' ts) :
    ReadsTails M U P names full ('[' :: (t1 ++ (':' :: (t2 ++ (']' :: t'))))) (.index [e1, e2] :: ts) := by
  intro p b hp hc k rest hf he
  exact .cons (bs := [.tail (.index [e1, e2])]) (hp.index _ _ _ _ (builds_slice2 h1 h2)) (by simp)
    (h p b hp (no_calls hc) _ _ hf he) (by simp)

theorem ReadsTails.sliceStep {t1 t2 t3 t' : Str} {e1 e2 e3 : Expr} {ts : List Tail} (h1 : ReadsBound M U P names full t1 e1)
    (h2 : ReadsBound M U P names full t2 e2) (h3 : ReadsBound M U P names full t3 e3) (h : ReadsTails M U P names full t' ts) :
    ReadsTails M U P names full ('[' :: (t1 ++ (':' :: (t2 ++ (':' :: (t3 ++ (']' :: t'))))))) (.index [e1, e2, e3] :: ts) := by
  intro p b hp hc k rest hf he
  exact .cons (bs := [.tail (.index [e1, e2, e3])]) (hp.index _ _ _ _ (builds_slice3 h1 h2 h3)) (by simp)
    (h p b hp (no_calls hc) _ _ hf he) (by simp)

theorem ReadsTails.member {w n t' : Str} {ts : List Tail} (hb : Blanks w) (hn : Name n) (hw : Tails M names t' ts)
    (h : ReadsTails M U P names full t' ts) : ReadsTails M U P names full ('.' :: (w ++ (n ++ t'))) (.member n :: ts) := by
  intro p b hp hc k rest hf he
  exact .cons (bs := [.tail (.member n)]) (hp.member _ _ _ _ (builds_member hb hn (tails_nameEnd hw he))) (by simp)
    (h p b hp (no_calls hc) _ _ hf he) (by simp)

theorem ReadsBound.empty {w : Str} (hw : Blanks w) : ReadsBound M U P names full w .sliceNone :=
  fun _ _ _ hc => builds_bound0 hw hc

theorem ReadsBound.expr {w t w' : Str} {e : Expr} (hb : Blanks w) (hw : Written M names 8 t e) (h : Rd 8 t e) (hb' : Blanks w') :
    ReadsBound M U P names full (w ++ (t ++ w')) (.root none e) :=
  fun _ _ _ hc => builds_bound hb hb' hc (fun _ => written_noBlank hw) (reads8 h)

/-! Filters -/

theorem filters_after {t rest : Str} {es : List Expr} (h : Filters M names t es) (ha : After M U 9 rest) : After M U 8 (t ++ rest) := by
  cases h with
  | nil => exact ha.mono (by omega)
  | plain h1 h2 h3 h4 => simpa using After.colon (M := M) (U := U) h1
  | args h1 h2 h3 h4 h5 h6 => simpa using After.colon (M := M) (U := U) h1

theorem filtname_noBlank {t s : Str} {e : Expr} (h : FilterName M names t e) : NoBlank (t ++ s) := by
  cases h with
  | atom h => exact written_noBlank h
  | tails h => rw [List.append_assoc]; exact written_noBlank h

theorem ReadsFilters.nil : ReadsFilters M U P names full [] [] :=
  fun _ _ ha => .nil (ha.stops 9 (by omega) _ (.head _))

theorem ReadsFilters.plain {w1 w2 t t' : Str} {e : Expr} {es : List Expr} (hw1 : Blanks w1) (hw2 : Blanks w2)
    (hn : FilterName M names t e) (h : ReadsFilterName M U P names full t e) (hf : Filters M names t' es)
    (h' : ReadsFilters M U P names full t' es) :
    ReadsFilters M U P names full (w1 ++ (':' :: (w2 ++ (t ++ t')))) (.factor e [] none :: es) := by
  intro k rest ha
  have ha' := filters_after hf ha
  exact .cons (bs := [bx (.factor e [] none)]) (builds_filter hw1 hw2 (filtname_noBlank hn) ha'.no_paren (fun k => h k _ (.after ha')))
    (by simp) (h' _ _ ha) (by simp)

theorem ReadsFilters.args {w1 w2 t w3 a t' : Str} {e : Expr} {ns : List (Option Str)} {as es : List Expr} (hw1 : Blanks w1)
    (hw2 : Blanks w2) (hn : FilterName M names t e) (h : ReadsFilterName M U P names full t e) (hw3 : Blanks w3)
    (hg : ReadsArgs M U P names full a ns as) (h' : ReadsFilters M U P names full t' es) :
    ReadsFilters M U P names full (w1 ++ (':' :: (w2 ++ (t ++ ('(' :: (w3 ++ (a ++ (')' :: t'))))))))
        (.factor e [.partialCall ns as] none :: es) := by
  intro k rest ha
  exact .cons (bs := [bx (.factor e [.partialCall ns as] none)]) (builds_filtargs hw1 hw2 (fun s => filtname_noBlank hn)
      (fun k => h k _ .paren) (fun k => builds_partial hg.1 hw3 (hg.opt 0 _).2 (fun k => (hg.opt k _).1)))
    (by simp) (h' _ _ ha) (by simp)

/-! Operators -/

theorem chain_ends {l : Nat} {t t' rest : Str} {os : List Str} {es : List Expr} (h : Chain M names (l + 1) t' os es)
    (ha : After M U (l + 1) rest) : Ends M U l t (t' ++ rest) := by
  cases h with
  | nil => exact ha.toEnds (by omega)
  | @cons _ w1' op' o' w2' u u' e' os' es' hs' ho' hw' hc' =>
    have := After.sep (M := M) (U := U) (s := u' ++ rest) hs' ho' (written_first hw')
    have := this.toEnds (t := t) (l' := l) (by omega)
    simpa using this

theorem chain_level {l : Nat} {t : Str} {os : List Str} {es : List Expr} (h : Chain M names l t os es) (hne : os ≠ []) :
    isChain l = true := by
  cases h with
  | nil => exact absurd rfl hne
  | cons hs _ _ => exact isChain_of_sep hs

theorem reads_chain' {l : Nat} {t t' : Str} {h : Expr} {os : List Str} {es : List Expr} (hw : Written M names l t h)
    (hx : Rd l t h) (hc : Chain M names (l + 1) t' os es) (hr : isChain (l + 1) = true → ReadsChain M U P names full (l + 1) t' os es)
    (hne : os ≠ []) : Rd (l + 1) (t ++ t') (combine (l + 1) h os es) := by
  intro k rest ha
  have hl := chain_level hc hne
  have hr := hr hl
  exact reads_chain hw hl hne hr.1 (fun k => hx k _ (chain_ends hc ha)) (fun k => hr.2 k _ ha)

theorem reads_minus' {w t t' : Str} {h : Expr} {os : List Str} {es : List Expr} (hb : Blanks w) (hw : Written M names 3 t h)
    (hx : Rd 3 t h) (hc : Chain M names 4 t' os es) (hr : ReadsChain M U P names full 4 t' os es) :
    Rd 4 ('-' :: (w ++ t ++ t')) (.chain true h os es) := by
  intro k rest ha
  exact reads_minus hb hw hr.1 (fun k => hx k _ (chain_ends hc ha)) (fun k => hr.2 k _ ha)

theorem reads_pipeline' {t t' : Str} {h : Expr} {es : List Expr} (hx : Rd 8 t h) (hf : Filters M names t' es)
    (hr : ReadsFilters M U P names full t' es) (hne : es ≠ []) : Rd 9 (t ++ t') (.pipeline h es) := by
  intro k rest ha
  exact reads_pipeline hne (fun k => hx k _ (filters_after hf ha)) (fun k => hr k _ ha)

theorem reads_nots' {n : Nat} {t t' : Str} {e : Expr} (hn : Nots M names (n + 1) t) (hw : Written M names 11 t' e) (hx : Rd 11 t' e) :
    Rd 12 (t ++ t') (.notTest (n + 1) e) := by
  intro k rest ha
  have ha : After M U 12 rest := ha
  have ho : Opens t' := by
    rcases written_opens hw with h | ⟨h, _⟩
    · exact h
    · omega
  exact reads_nots (fun k => nots_reads hn k _ _ ho (written_noBlank hw) ha.nameEnd) (fun k => hx k _ (ha.toEnds (l' := 11) (by omega)))

theorem reads_if' {x w1 w2 c : Str} {ex ec : Expr} (hx : Rd 14 x ex) (hw1 : Blanks w1) (hn1 : w1 ≠ []) (hw2 : Blanks w2)
    (hn2 : w2 ≠ []) (hwc : Written M names 14 c ec) (hc : Rd 14 c ec) :
    Rd 15 (x ++ (w1 ++ (s!!"if" ++ (w2 ++ c)))) (.ifElse ex ec none) := by
  intro k rest ha
  have ha : After M U 15 rest := ha
  exact reads_if hw1 hn1 hw2 hn2 (written_noBlank hwc) (ha.stops 15 (by omega) _ (.tail _ (.head _)))
    (fun k => hx k _ (.if' hw1 hn1 hw2 hn2)) (fun k => hc k _ (ha.toEnds (l' := 14) (by omega)))

theorem reads_ifElse' {x w1 w2 c w3 w4 y : Str} {ex ec ey : Expr} (hx : Rd 14 x ex) (hw1 : Blanks w1) (hn1 : w1 ≠ [])
    (hw2 : Blanks w2) (hn2 : w2 ≠ []) (hwc : Written M names 14 c ec) (hc : Rd 14 c ec) (hw3 : Blanks w3) (hn3 : w3 ≠ [])
    (hw4 : Blanks w4) (hn4 : w4 ≠ []) (hwy : Written M names 15 y ey) (hy : Rd 15 y ey) :
    Rd 15 (x ++ (w1 ++ (s!!"if" ++ (w2 ++ (c ++ (w3 ++ (s!!"else" ++ (w4 ++ y)))))))) (.ifElse ex ec (some ey)) := by
  intro k rest ha
  exact reads_ifElse hw1 hn1 hw2 hn2 hw3 hn3 hw4 hn4 (fun s => written_noBlank hwc) (written_noBlank hwy)
    (fun k => hx k _ (.if' hw1 hn1 hw2 hn2)) (fun k => hc k _ (.else' hw3 hn3 hw4 hn4)) (fun k => hy k _ ha)

theorem reads_tails' {t t' : Str} {a : Expr} {ts : List Tail} {q : Option Qual} (hx : Rd 0 t a) (hw : Tails M names t' ts)
    (ht : ReadsTails M U P names full t' ts) (hne : ts ≠ [])
    (hp : ∀ c, t.head? = some c → ascDigit c = true → t'.head? ≠ some '.') : Rd 1 (t ++ t' ++ qualText q) (.factor a ts q) := by
  intro k rest ha
  have ha : After M U 1 rest := ha
  exact reads_factor (.inl hne) (.inl hne) ha (fun k => hx k _ (apart_tails hw hne hp))
    (fun k => ht _ true tailLike_ws (by simp) k _ (factor_stop ha) (qual_nameEnd ha.nameEnd))

theorem reads_qualified' {t : Str} {a : Expr} {q : Qual} (hx : Rd 0 t a) (hr : ∀ p e, a ≠ .root p e) :
    Rd 1 (t ++ qualText (some q)) (.factor a [] (some q)) := by
  intro k rest ha
  have ha : After M U 1 rest := ha
  have := reads_factor (M := M) (U := U) (P := P) (names := names) (full := full) (k := k) (t := t) (t' := []) (a := a) (ts := [])
    (q := some q) (.inr (by simp)) (.inr hr) ha (fun k => hx k _ apart_qual) (fun k => .nil (factor_stop ha))
  rw [List.append_nil] at this
  exact this

theorem reads_set' {w t t' w' : Str} {e : Expr} {es : List Expr} (hb : Blanks w) (hw : Written M names 8 t e) (hx : Rd 8 t e)
    (he : ReadsElems M U P names full t' es) (hb' : Blanks w') :
    Rd 0 ('{' :: (w ++ t ++ t' ++ w' ++ ['}'])) (.set (.root none e :: es)) := by
  intro k rest _
  obtain ⟨_, u, c, s, h1, h2, h3⟩ := he 0 w' rest hb'
  exact reads_set hb hb' (fun _ => written_noBlank hw) h2 h3 h1 (reads8 hx) (reads15 (by omega) hw hx)
    (fun k => (he k w' rest hb').1)

theorem reads_dict' {w t w' : Str} {es : List Expr} (hb : Blanks w) (h : ReadsPairs M U P names full t es) (hb' : Blanks w') :
    Rd 0 ('{' :: (w ++ t ++ w' ++ ['}'])) (.dict es) := by
  intro k rest _
  cases es with
  | nil =>
    have := h.1 rfl
    subst this
    have := reads_dict0 (M := M) (U := U) (P := P) (names := names) (full := full) (k := k) (w := w ++ w') (rest := rest)
      (fun c hc => (List.mem_append.1 hc).elim (hb c) (hb' c))
    rw [List.append_nil]
    exact this
  | cons e es =>
    obtain ⟨x, y, bs, cs, hs⟩ := h.2 (by simp) w' hb'
    rw [hs.text]
    exact reads_dict hb hs.nodes (hs.starts _) (fun k => hs.front k rest) (fun k => hs.last k rest)

theorem reads_list' {w t l : Str} {es fs : List Expr} (hb : Blanks w) (h1 : ReadsItems M U P names full t es)
    (h2 : ReadsLast M U P names full l fs) : Rd 0 ('[' :: (w ++ t ++ l ++ [']'])) (.list (es ++ fs)) := by
  intro k rest _
  have h2' := fun k => h2 ']' (by simp) k rest
  exact reads_list hb (h1.2.1 _ (h2' 0).2.1) (fun k => (h1.1 k _ (h2' 0).2.1 (h2' 0).2.2).star) (fun k => (h2' k).1)

theorem reads_tuple' {w t l : Str} {es fs : List Expr} (hb : Blanks w) (h1 : ReadsItems M U P names full t es) (hne : es ≠ [])
    (h2 : ReadsLast M U P names full l fs) : Rd 0 ('(' :: (w ++ t ++ l ++ [')'])) (.tuple (es ++ fs)) := by
  intro k rest _
  have h2' := fun k => h2 ')' (by simp) k rest
  have h3 := h1.2.2 hne
  exact reads_tuple hb (h1.2.1 _ (h2' 0).2.1) (h3.2 _) (fun k => (h1.1 k _ (h2' 0).2.1 (h2' 0).2.2).plus h3.1) (fun k => (h2' k).1)

theorem reads_string' {q : Char} {t : Str} {es : List Expr} (hq : q = '\'' ∨ q = '"')
    (h : ReadsParts M U P names full (some q) t es) : Rd 0 (q :: (t ++ [q])) (.format es) := by
  intro k rest _
  obtain ⟨bs, h1, h2, h3⟩ := h (by intro c hc; cases hc; exact hq)
  exact reads_string hq h1 (fun k => (h3 k _ (.quote hq)).star)

variable (M U P names full)

set_option maxHeartbeats 4000000 in
mutual
/-- The text of an expression is read as the expression. -/
theorem written_reads : ∀ {l : Nat} {t : Str} {e : Expr}, Written M names l t e → Rd l t e
  | _, _, _, .number h => fun _ _ ha => reads_number h ha
  | _, _, _, .true => fun _ _ _ => reads_true
  | _, _, _, .false => fun _ _ _ => reads_false
  | _, _, _, .none => fun _ _ _ => reads_none
  | _, _, _, .string hq h => reads_string' hq (parts_reads h)
  | _, _, _, .raw hq h _ => fun _ _ _ => reads_raw hq h
  | _, _, _, .var h => fun _ _ ha => reads_var h ha
  | _, _, _, .dollar h => fun _ _ ha => reads_dollar h (Apart.nameEnd ha)
  | _, _, _, .tag h => fun _ _ ha => reads_tag h (Apart.nameEnd ha)
  | _, _, _, .paren hw h hw' => fun _ _ _ => reads_paren hw hw' (fun _ => written_noBlank h) (reads15 (by omega) h (written_reads h))
  | _, _, _, .list hw h1 h2 => reads_list' hw (items_reads h1) (last_reads h2)
  | _, _, _, .unit hw => fun _ _ _ => reads_unit hw
  | _, _, _, .tuple hw h1 hne h2 => reads_tuple' hw (items_reads h1) hne (last_reads h2)
  | _, _, _, .set hw h he hw' => reads_set' hw h (written_reads h) (elems_reads he) hw'
  | _, _, _, .dict hw h hw' => reads_dict' hw (pairs_reads h) hw'
  | _, _, _, .tails h ht hne hp => reads_tails' (written_reads h) ht (tails_reads ht) hne hp
  | _, _, _, .qualified h hr => reads_qualified' (written_reads h) hr
  | _, _, _, .up h hl => reads_up h hl (written_reads h)
  | _, _, _, .chain h hc hne => reads_chain' h (written_reads h) hc (chain_reads hc) hne
  | _, _, _, .minus hw h hc => reads_minus' hw h (written_reads h) hc (chain_reads hc rfl)
  | _, _, _, .pipeline h hf hne => reads_pipeline' (written_reads h) hf (filters_reads hf) hne
  | _, _, _, .nots hn h => reads_nots' hn h (written_reads h)
  | _, _, _, .ifOnly h1 hw1 hn1 hw2 hn2 h2 => reads_if' (written_reads h1) hw1 hn1 hw2 hn2 h2 (written_reads h2)
  | _, _, _, .ifElse h1 hw1 hn1 hw2 hn2 h2 hw3 hn3 hw4 hn4 h3 =>
    reads_ifElse' (written_reads h1) hw1 hn1 hw2 hn2 h2 (written_reads h2) hw3 hn3 hw4 hn4 h3 (written_reads h3)
theorem chain_reads : ∀ {l : Nat} {t : Str} {os : List Str} {es : List Expr}, Chain M names l t os es → isChain l = true →
    ReadsChain M U P names full l t os es
  | _, _, _, _, .nil, hl => ⟨rfl, fun _ _ ha => by simp only [chainB]; exact .nil (contPeg_fails hl ha)⟩
  | _, _, _, _, .cons hs ho h hc, hl => .step hs ho h (written_reads h) hc (chain_reads hc hl)
theorem filters_reads : ∀ {t : Str} {es : List Expr}, Filters M names t es → ReadsFilters M U P names full t es
  | _, _, .nil => .nil
  | _, _, .plain hw1 hw2 hn hf => .plain hw1 hw2 hn (filtname_reads hn) hf (filters_reads hf)
  | _, _, .args hw1 hw2 hn hw3 ha hf => .args hw1 hw2 hn (filtname_reads hn) hw3 (args_reads ha) (filters_reads hf)
theorem filtname_reads : ∀ {t : Str} {e : Expr}, FilterName M names t e → ReadsFilterName M U P names full t e
  | _, _, .atom h => fun _ _ hr => builds_filtatom hr (fun k => written_reads h k _ hr.apart)
  | _, _, .tails h ht hne hc hp => fun _ _ hr => builds_filtname hne (fun k => written_reads h k _ (apart_tails ht hne hp))
      (fun k => tails_reads ht _ false tailLike_filt (fun _ => hc) k _ hr.stop (fun c hc => (hr c hc).1))
theorem tails_reads : ∀ {t : Str} {ts : List Tail}, Tails M names t ts → ReadsTails M U P names full t ts
  | _, _, .nil => .nil
  | _, _, .call hw ha h => .call hw (args_reads ha) (tails_reads h)
  | _, _, .index hw hx hw' h => .index hw hx (written_reads hx) hw' (tails_reads h)
  | _, _, .slice h1 h2 h => .slice (bound_reads h1) (bound_reads h2) (tails_reads h)
  | _, _, .sliceStep h1 h2 h3 h => .sliceStep (bound_reads h1) (bound_reads h2) (bound_reads h3) (tails_reads h)
  | _, _, .member hw hn h => .member hw hn h (tails_reads h)
theorem bound_reads : ∀ {t : Str} {e : Expr}, Bound M names t e → ReadsBound M U P names full t e
  | _, _, .empty hw => .empty hw
  | _, _, .expr hw h hw' => .expr hw h (written_reads h) hw'
theorem args_reads : ∀ {t : Str} {ns : List (Option Str)} {es : List Expr}, Args M names t ns es → ReadsArgs M U P names full t ns es
  | _, _, _, .none => ⟨rfl, fun _ => rfl, fun h => absurd rfl h⟩
  | _, _, _, .last h hw => .last (arg_reads h) hw
  | _, _, _, .cons h hw1 hw2 h' hne => .step (arg_reads h) hw1 hw2 (args_reads h') hne
theorem arg_reads : ∀ {t : Str} {n : Option Str} {e : Expr}, Arg M names t n e → ReadsArg M U P names full t n e
  | _, _, _, .positional h => .positional h (written_reads h)
  | _, _, _, .keyword hn hw1 hw2 h => .keyword hn hw1 hw2 h (written_reads h)
theorem items_reads : ∀ {t : Str} {es : List Expr}, Items M names t es → ReadsItems M U P names full t es
  | _, _, .nil => .nil
  | _, _, .cons h hw1 hw2 h' => .step h (written_reads h) hw1 hw2 (items_reads h')
theorem last_reads : ∀ {t : Str} {es : List Expr}, Last M names t es → ReadsLast M U P names full t es
  | _, _, .none => .none
  | _, _, .one h hw => .one h (written_reads h) hw
theorem elems_reads : ∀ {t : Str} {es : List Expr}, Elems M names t es → ReadsElems M U P names full t es
  | _, _, .nil => .nil
  | _, _, .cons hw1 hw2 h h' => .step hw1 hw2 h (written_reads h) (elems_reads h')
theorem pairs_reads : ∀ {t : Str} {es : List Expr}, Pairs M names t es → ReadsPairs M U P names full t es
  | _, _, .nil => .nil
  | _, _, .last h1 hw1 hw2 h2 => .last h1 (written_reads h1) hw1 hw2 h2 (written_reads h2)
  | _, _, .cons h1 hw1 hw2 h2 hw3 hw4 h' hne =>
    .step h1 (written_reads h1) hw1 hw2 h2 (written_reads h2) hw3 hw4 (pairs_reads h') hne
theorem parts_reads : ∀ {q : Option Char} {t : Str} {es : List Expr}, Parts M names q t es → ReadsParts M U P names full q t es
  | _, _, _, .nil => .nil
  | _, _, _, .text hne hs hv h ht => .text hne hs hv (parts_reads h) ht
  | _, _, _, .doubled hc h => .doubled hc (parts_reads h)
  | _, _, _, .braces hw h hw' ho h' ht => .braces hw h (written_reads h) hw' ho (parts_reads h') ht
  | _, _, _, .var hn h ht => .var (t' := []) (ts := []) hn .nil .nil (parts_reads h) ht
  | _, _, _, .varTails (ts := []) _ _ hne _ _ => absurd rfl hne
  | _, _, _, .varTails (ts := _ :: _) hn hts _ h ht => .var hn hts (tails_reads hts) (parts_reads h) ht
  | _, _, _, .bracesQual hw h hw' ho h' => .bracesQual hw h (written_reads h) hw' ho (parts_reads h')
  | _, _, _, .varQual hn hts h => .varQual hn hts (tails_reads hts) (parts_reads h)
end

end
end Verif
