import Verif.Lemmas.Brackets

/-! Arguments, calls, indices, members; contents of strings and lines of text. -/

namespace Verif
open Py Spec

section
variable {M : Marks} {U : Uni} {P : Type} {names : Str → Option Char} {full : Str} {k : Nat}

local notation "Bd" => Builds M U P names full
local notation "Bq" => BuildsSeq M U P names full
local notation "Bs" => BuildsStar M U P names full
local notation "Fl" => Fails (rule M U)
local notation "Fq" => FailsSeq (rule M U)

variable (M U P names full) in
/-- Repetitions of `p`. -/
structure Many (k : Nat) (p : Peg NT) (t rest : Str) (bs : List (Built P)) : Prop where
  star : BuildsStar M U P names full k p t rest bs
  more : BuildsMore M U P names full k p t rest bs
  plus : t ≠ [] → Builds M U P names full k (.plus p) t rest bs

local notation "Bm" => Many M U P names full

theorem Many.nil {p : Peg NT} {rest : Str} (h : Fl p rest) : Bm k p [] rest [] :=
  ⟨.nil h, .nil h, fun h => absurd rfl h⟩

theorem Many.cons {p : Peg NT} {x y z r rest : Str} {bs cs ds : List (Built P)} (h : ∀ k, Bd k p x r bs)
    (hx : x ≠ []) (h' : Bm (k + x.length) p y rest cs) (hr : r = y ++ rest := by first | rfl | simp)
    (hz : z = x ++ y := by simp) (hd : ds = bs ++ cs := by simp) : Bm k p z rest ds := by
  subst hr hz hd
  exact ⟨.cons (h _) hx h'.star, .cons (h _) hx h'.more, fun _ => .plus (h _) hx h'.more⟩

/-! Names of arguments -/

theorem Fails.name_start {c : Char} {s : Str} (h : nameStart c = false) : Fl (.ref .name_id) (c :: s) := by
  refine .ref (.seq ?_)
  rcases (rule_noLeftRec M U).total (.ref .name_reserved) (c :: s) with ⟨t, rest, h'⟩ | h'
  · exact .head (.not h')
  · refine .tail (.not h') (.head (.rx (RE.match?_seq_none ?_)))
    simp [RE.match?, RE.rests, h]

theorem startSym_not_name {c : Char} (h : startSym c = true) : nameStart c = false := by
  simp only [startSym, Bool.or_eq_true, List.elem_eq_mem, List.mem_cons, List.not_mem_nil, or_false,
    decide_eq_true_eq] at h
  rcases h with (rfl | rfl | rfl | rfl | rfl | rfl | rfl | rfl) | h
  all_goals try rfl
  simp only [ascDigit, Bool.and_eq_true, decide_eq_true_eq] at h
  simp only [nameStart, azI, Bool.or_eq_false_iff, Bool.and_eq_false_iff, decide_eq_false_iff_not, beq_eq_false_iff_ne]
  refine ⟨⟨⟨⟨⟨⟨?_, ?_⟩, ?_⟩, ?_⟩, ?_⟩, ?_⟩, ?_⟩
  all_goals first | omega | skip
  rintro rfl
  have : '_'.toNat = 95 := rfl
  omega

theorem no_kwarg {l : Nat} {t e w s} {c : Char} (h : Written M names l t e) (hw : Blanks w)
    (hc : c = ')' ∨ c = ',') : Fl (.ref .kwarg) (t ++ (w ++ c :: s)) := by
  refine .ref (.seq ?_)
  have hcb : isBlank c = false := by rcases hc with rfl | rfl <;> rfl
  have hce : c ≠ '=' := by rcases hc with rfl | rfl <;> decide
  have hcn : nameChar c = false := by rcases hc with rfl | rfl <;> rfl
  rcases written_opens h with h | ⟨_, d, u, rfl, hd⟩
  · cases h with
    | sym d u ht hd => rw [ht]; exact .head (.name_start (startSym_not_name hd))
    | word n r ht hn hr =>
      subst ht
      have hj : Joins (w ++ c :: s) := .op hw hcn hcb (fun h => absurd h hce)
      have hj := hr.append hj
      have hn := (Builds.name (M := M) (U := U) (P := Unit) (names := fun _ => none) (full := []) (k := 0) hn hj.ends).eats
      rw [List.append_assoc]
      refine .after hn ?_
      rcases hj.goes with h0 | ⟨v, d, u, h1, h2, h3, h4⟩
      · simp at h0
      · rw [h1]
        refine .after (.ws h2 (.cons h3)) ?_
        by_cases hd : d = '='
        · subst hd
          have h4 := h4 rfl
          cases u with
          | nil => cases h4
          | cons a u =>
            simp only [List.head?_cons, Option.some.injEq] at h4
            subst h4
            refine .after (x := ['=']) (eats_lit _ _) ?_
            refine .after (x := []) (.ws .nil (.cons rfl)) (.head ?_)
            exact .first 200 rfl
        · exact .head (.lit1 hd)
  · refine .head ?_
    rw [List.append_assoc]
    refine .name_reserved (by decide) (c := d) ?_ (.inl rfl)
    simp only [isBlank, Bool.or_eq_true, beq_iff_eq] at hd
    rcases hd with rfl | rfl <;> rfl

/-! Calls -/

theorem builds_args {x y w rest : Str} {bs cs : List (Built P)} (hw : Blanks w)
    (h1 : ∀ k, Bd k (.ref .arg) x (y ++ (w ++ ')' :: rest)) bs)
    (h2 : ∀ k, Bs k (.seq [.ref .comma, .ref .arg]) y (w ++ ')' :: rest) cs) :
    Bd k (.opt (.seq [.ref .args, .ref .ws])) (x ++ (y ++ w)) (')' :: rest) (bs ++ cs) := by
  have h : ∀ k, Bd k (.ref .args) (x ++ y) (w ++ ')' :: rest) (bs ++ cs) := fun k =>
    .reduced rfl (.ofSeq (.step (h1 _) (.step (.star (h2 _)) (.step (.opt_none (rest := w ++ ')' :: rest)
      (.seq2 (.ws hw (rest := ')' :: rest) (.cons rfl)) (.lit1 (by decide)))) (.nil _)))))
  exact .opt_some (.ofSeq (.step (h _) (.step (.ws hw (.cons rfl)) (.nil _))))

theorem builds_call {w a rest : Str} {ns : List (Option Str)} {es : List Expr} (hl : ns.length = es.length)
    (hw : Blanks w) (hb : NoBlank (a ++ ')' :: rest))
    (h : ∀ k, Bd k (.opt (.seq [.ref .args, .ref .ws])) a (')' :: rest) (argsB ns es)) :
    Bd k (.ref .call) ('(' :: (w ++ (a ++ [')']))) rest [.tail (.call ns es)] := by
  refine .plain (bs := argsB ns es) ?_ ?_
  · exact .ofSeq (.step (.lit _ _) (.step (.ws hw hb) (.step (h _) (.step (.lit _ _) (.nil _)))))
  · rw [attachQuals_id (.args _ _)]
    simp only [setup, setupExpr, asArgs_argsB _ _ hl]; rfl

theorem builds_partial {w a rest : Str} {ns : List (Option Str)} {es : List Expr} (hl : ns.length = es.length)
    (hw : Blanks w) (hb : NoBlank (a ++ ')' :: rest))
    (h : ∀ k, Bd k (.opt (.seq [.ref .args, .ref .ws])) a (')' :: rest) (argsB ns es)) :
    Bd k (.ref .partial_call) ('(' :: (w ++ (a ++ [')']))) rest [.tail (.partialCall ns es)] := by
  refine .plain (bs := argsB ns es) ?_ ?_
  · exact .ofSeq (.step (.lit _ _) (.step (.ws hw hb) (.step (h _) (.step (.lit _ _) (.nil _)))))
  · rw [attachQuals_id (.args _ _)]
    simp only [setup, setupExpr, asArgs_argsB _ _ hl]; rfl

/-! Indices -/

theorem builds_bound0 {w s : Str} {c : Char} (hw : Blanks w) (hc : c = ':' ∨ c = ']') :
    Bd k (.ref .slice_value) w (c :: s) [.expr false .sliceNone] := by
  refine .plain (bs := []) ?_ rfl
  refine .ofSeq (.step (.ws hw (rest := c :: s) (.cons ?_)) (.step (.opt_none (rest := c :: s) ?_) (.nil _)))
  · rcases hc with rfl | rfl <;> rfl
  · rcases hc with rfl | rfl <;> exact .first 200 rfl

theorem builds_bound {w t w' s : Str} {c : Char} {e : Expr} (hw : Blanks w) (hw' : Blanks w') (hc : c = ':' ∨ c = ']')
    (hb : ∀ s, NoBlank (t ++ s)) (h : ∀ k rest, After M U 8 rest → Bd k (.ref .or_expr) t rest [bx e]) :
    Bd k (.ref .slice_value) (w ++ (t ++ w')) (c :: s) [.expr false (.root none e)] := by
  have hcb : isBlank c = false := by rcases hc with rfl | rfl <;> rfl
  have ha : After M U 8 (w' ++ c :: s) := by
    rcases hc with rfl | rfl
    · exact .colon hw'
    · exact (After.closer (by simp) hw').mono (by omega)
  refine .plain (bs := [bx (.root none e)]) ?_ (by rw [attachQuals_one]; rfl)
  refine .ofSeq (.step (.ws hw (hb (w' ++ c :: s))) (.step (.opt_some (.ofSeq (x := t ++ (w' ++ []))
    (bs := [bx (.root none e)]) ?_ rfl rfl)) (.nil _)))
  exact .step (bs := [bx (.root none e)]) (cs := []) (builds_bitwise (h _ _ ha)) (.step (.ws hw' (.cons hcb)) (.nil _))

theorem builds_index {w t w' rest : Str} {e : Expr} (hw : Blanks w) (hw' : Blanks w')
    (hb : ∀ s, NoBlank (t ++ s)) (h8 : ∀ k rest, After M U 8 rest → Bd k (.ref .or_expr) t rest [bx e])
    (h15 : ∀ k rest, After M U 15 rest → Bd k (.ref .ifelse_test) t rest [bx e]) :
    Bd k (.ref .index) ('[' :: (w ++ (t ++ (w' ++ [']'])))) rest [.tail (.index [.root none e])] := by
  refine .plain (bs := [bx (.root none e)]) ?_ (by rw [attachQuals_one]; rfl)
  have hs : Fl (.ref .slice) (w ++ (t ++ w') ++ ']' :: rest) := by
    refine .ref (.seq ?_)
    exact .after (builds_bound (k := 0) hw hw' (.inr rfl) hb h8).eats (.head (.lit1 (by decide)))
  have hx : ∀ k, Bd k (.ref .subscript) (w ++ (t ++ w')) (']' :: rest) [bx (.root none e)] := by
    intro k
    refine .reduced rfl (.alt (.there hs (.here ?_)))
    exact .ofSeq (.step (.ws hw (hb (w' ++ ']' :: rest))) (.step (builds_augment hw' (.cons rfl) (by simp)
      (fun k => h15 k (w' ++ ']' :: rest) (.closer (by simp) hw'))) (.step (.ws hw' (.cons rfl)) (.nil _))))
  exact .ofSeq (.step (.lit _ _) (.step (hx _) (.step (.lit _ _) (.nil _))))

theorem builds_slice2 {t1 t2 rest : Str} {e1 e2 : Expr}
    (h1 : ∀ k c s, (c = ':' ∨ c = ']') → Bd k (.ref .slice_value) t1 (c :: s) [.expr false e1])
    (h2 : ∀ k c s, (c = ':' ∨ c = ']') → Bd k (.ref .slice_value) t2 (c :: s) [.expr false e2]) :
    Bd k (.ref .index) ('[' :: (t1 ++ (':' :: (t2 ++ [']'])))) rest [.tail (.index [e1, e2])] := by
  refine .plain (bs := [.expr false e1, .expr false e2]) ?_ rfl
  have hx : ∀ k, Bd k (.ref .subscript) (t1 ++ (':' :: t2)) (']' :: rest) [.expr false e1, .expr false e2] := by
    intro k
    refine .reduced rfl (.alt (.here (.reduced rfl ?_)))
    exact .ofSeq (.step (h1 _ ':' (t2 ++ ']' :: rest) (.inl rfl)) (.step (.lit _ _) (.step (h2 _ ']' rest (.inr rfl))
      (.step (.opt_none (.first 200 rfl)) (.nil _)))))
  exact .ofSeq (.step (.lit _ _) (.step (hx _) (.step (.lit _ _) (.nil _))))

theorem builds_slice3 {t1 t2 t3 rest : Str} {e1 e2 e3 : Expr}
    (h1 : ∀ k c s, (c = ':' ∨ c = ']') → Bd k (.ref .slice_value) t1 (c :: s) [.expr false e1])
    (h2 : ∀ k c s, (c = ':' ∨ c = ']') → Bd k (.ref .slice_value) t2 (c :: s) [.expr false e2])
    (h3 : ∀ k c s, (c = ':' ∨ c = ']') → Bd k (.ref .slice_value) t3 (c :: s) [.expr false e3]) :
    Bd k (.ref .index) ('[' :: (t1 ++ (':' :: (t2 ++ (':' :: (t3 ++ [']'])))))) rest [.tail (.index [e1, e2, e3])] := by
  refine .plain (bs := [.expr false e1, .expr false e2, .expr false e3]) ?_ rfl
  have hy : ∀ k, Bd k (.opt (.seq [.lit (s!!":"), .ref .slice_value])) (':' :: t3) (']' :: rest) [.expr false e3] := fun k =>
    .opt_some (.ofSeq (.step (.lit _ _) (.step (h3 _ ']' rest (.inr rfl)) (.nil _))))
  have hx : ∀ k, Bd k (.ref .subscript) (t1 ++ (':' :: (t2 ++ ':' :: t3))) (']' :: rest)
      [.expr false e1, .expr false e2, .expr false e3] := by
    intro k
    refine .reduced rfl (.alt (.here (.reduced rfl ?_)))
    exact .ofSeq (.step (h1 _ ':' (t2 ++ ':' :: (t3 ++ ']' :: rest)) (.inl rfl)) (.step (.lit _ _)
      (.step (h2 _ ':' (t3 ++ ']' :: rest) (.inl rfl)) (.step (hy _) (.nil _)))))
  exact .ofSeq (.step (.lit _ _) (.step (hx _) (.step (.lit _ _) (.nil _))))

theorem builds_member {w n rest : Str} (hw : Blanks w) (hn : Name n) (he : NameEnd rest) :
    Bd k (.ref .member) ('.' :: (w ++ n)) rest [.tail (.member n)] := by
  refine .plain (bs := [.str .name_id n]) ?_ rfl
  refine .ofSeq (.step (.lit _ _) (.step (.ws hw (rest := n ++ rest) ?_) (.step (.name hn he) (.nil _))))
  obtain ⟨c, s, rfl, hc, _⟩ := hn.start
  exact .cons (nameStart_cases hc).1

variable (M U P names full) in
/-- Expressions of the grammar that match calls (if `b`), indices and members. -/
structure TailLike (p : Peg NT) (b : Bool) : Prop where
  call : b = true → ∀ k x rest bs, Builds M U P names full k (.ref .call) ('(' :: x) rest bs →
    Builds M U P names full k p ('(' :: x) rest bs
  index : ∀ k x rest bs, Builds M U P names full k (.ref .index) ('[' :: x) rest bs →
    Builds M U P names full k p ('[' :: x) rest bs
  member : ∀ k x rest bs, Builds M U P names full k (.ref .member) ('.' :: x) rest bs →
    Builds M U P names full k p ('.' :: x) rest bs

theorem tailLike_trailer : TailLike M U P names full (.ref .trailer) true := by
  refine ⟨?_, ?_, ?_⟩
  · intro _ k x rest bs h
    exact .reduced rfl (.alt (.here h))
  · intro k x rest bs h
    exact .reduced rfl (.alt (.there (.first 200 rfl) (.here h)))
  · intro k x rest bs h
    exact .reduced rfl (.alt (.there (.first 200 rfl) (.there (.first 200 rfl) (.here h))))

theorem tailLike_filt : TailLike M U P names full (.ref .trailer_filt) false := by
  refine ⟨?_, ?_, ?_⟩
  · intro h; cases h
  · intro k x rest bs h
    exact .reduced rfl (.alt (.here h))
  · intro k x rest bs h
    exact .reduced rfl (.alt (.there (.first 200 rfl) (.here h)))

theorem tailLike_ws : TailLike M U P names full (.seq [.ref .ws, .ref .trailer]) true := by
  have key : ∀ k c x rest bs, isBlank c = false → Bd k (.ref .trailer) (c :: x) rest bs →
      Bd k (.seq [.ref .ws, .ref .trailer]) (c :: x) rest bs := by
    intro k c x rest bs hc h
    exact .ofSeq (.step (.ws .nil (rest := c :: x ++ rest) (.cons hc)) (.step (y := []) (cs := []) h (.nil _)))
  refine ⟨?_, ?_, ?_⟩
  · intro hb k x rest bs h
    exact key _ _ _ _ _ rfl (tailLike_trailer.call hb _ _ _ _ h)
  · intro k x rest bs h
    exact key _ _ _ _ _ rfl (tailLike_trailer.index _ _ _ _ h)
  · intro k x rest bs h
    exact key _ _ _ _ _ rfl (tailLike_trailer.member _ _ _ _ h)

/-! Contents of strings and lines -/

/-- Characters excluded from pieces of text. -/
def excluded : Option Char → List Char
  | none => ['$', '{', '}']
  | some c => if c = '\'' then ['$', '{', '}', '\''] else ['$', '{', '}', '"']

theorem rule_text (q : Option Char) : rule M U (textNT q) = .rx (reLine M (excluded q)) := by
  cases q with
  | none => rfl
  | some c => simp only [textNT, excluded]; split <;> rfl

variable (M) in
/-- The text after the contents of a string or a line. -/
def PartsEnd (q : Option Char) (rest : Str) : Prop :=
  ∀ c, rest.head? = some c → c ≠ '$' ∧ c ≠ '{' ∧ c ≠ '}' ∧ lineChar M (excluded q) c = false ∧ nameChar c = false ∧
    (s!!"([.?!").elem c = false

theorem no_escape {c : Char} {s : Str} (h : s.head? = some c → c ≠ '$' ∧ c ≠ '{' ∧ c ≠ '}') : Fl (.ref .escape) (c :: s) := by
  have key : ∀ a, (a = '$' ∨ a = '{' ∨ a = '}') → (RE.word [a, a]).match? (c :: s) = none := by
    intro a ha
    refine RE.match?_word_none ?_
    by_cases hca : a = c
    · subst hca
      refine not_prefix_two ?_
      intro h0
      have := h h0
      simp [this] at ha
    · simp [List.isPrefixOf, hca]
  refine .ref (.rx ?_)
  show (RE.alt (RE.word (s!!"$$")) (.alt (RE.word (s!!"{{")) (RE.word (s!!"}}")))).match? (c :: s) = none
  rw [RE.match?_right (key '$' (by simp)), RE.match?_right (key '{' (by simp))]
  exact key '}' (by simp)

theorem no_embedding {c : Char} {s : Str} (h1 : c ≠ '$') (h2 : c ≠ '{') : Fl (.ref .embedding) (c :: s) :=
  .ref (.alt (.cons (.ref (.seq1 (.lit1 h2))) (.cons (.ref (.seq1 (.ref (.lit1 h1)))) (.nil _))))

theorem parts_stop {q : Option Char} {rest : Str} (h : PartsEnd M q rest) :
    Fl (.alt [.ref .escape, .ref .embedding, .ref (textNT q)]) rest := by
  cases rest with
  | nil =>
    refine .alt (.cons (.first 200 rfl) (.cons (.first 200 rfl) (.cons (.ref ?_) (.nil _))))
    rw [rule_text]
    exact .rx rfl
  | cons c s =>
    obtain ⟨h1, h2, h3, h4, _⟩ := h c rfl
    refine .alt (.cons (no_escape (fun _ => ⟨h1, h2, h3⟩)) (.cons (no_embedding h1 h2) (.cons (.ref ?_) (.nil _))))
    rw [rule_text]
    refine .rx (RE.match?_seq_none ?_)
    simp [RE.match?, RE.rests, h4]

/-- The node of a piece of text. -/
def pieceB (q : Option Char) (v : Str) : Built P := .str (textNT q) v

theorem plainChar_line {q : Option Char} (hq : ∀ c, q = some c → c = '\'' ∨ c = '"') {c : Char} (h : plainChar M q c) :
    lineChar M (excluded q) c = true := by
  obtain ⟨h1, h2, h3, h4, h5, h6, h7, h8, h9⟩ := h
  cases q with
  | none => simp [lineChar, excluded, h1, h2, h3, h4, h6, h7, h8, h9]
  | some d =>
    simp only [ne_eq, Option.some.injEq] at h5
    rcases hq d rfl with rfl | rfl
    · simp [lineChar, excluded, h1, h2, h3, h4, h5, h6, h7, h8, h9]
    · simp [lineChar, excluded, h1, h2, h3, h4, h5, h6, h7, h8, h9]

theorem builds_piece {q : Option Char} (hq : ∀ c, q = some c → c = '\'' ∨ c = '"') {s v rest : Str} (hne : s ≠ [])
    (hs : ∀ c ∈ s, plainChar M q c) (hv : pieceValue names q s = some v)
    (hr : ∀ c, rest.head? = some c → lineChar M (excluded q) c = false) :
    Bd k (.alt [.ref .escape, .ref .embedding, .ref (textNT q)]) s rest [pieceB q v] := by
  obtain ⟨c, u, hcu⟩ : ∃ c u, s = c :: u := by
    cases s with
    | nil => exact absurd rfl hne
    | cons c u => exact ⟨_, _, rfl⟩
  have hc := hs c (by simp [hcu])
  have hx : Bd k (rule M U (textNT q)) s rest [] := by
    rw [rule_text]
    exact .rx (RE.match?_many1 hne (fun c hc => plainChar_line hq (hs c hc)) (inClass_false hr))
  refine .alt (.there ?_ (.there ?_ (.here ?_)))
  · rw [hcu]; exact no_escape (fun _ => ⟨hc.1, hc.2.1, hc.2.2.1⟩)
  · rw [hcu]; exact no_embedding hc.1 hc.2.1
  · cases q with
    | none =>
      simp only [pieceValue, Option.some.injEq] at hv
      subst hv
      exact .plain hx rfl
    | some d =>
      simp only [pieceValue] at hv
      rcases hq d rfl with rfl | rfl
      · refine .plain (n := .text_quot1) hx ?_
        simp only [setup, setupExpr, hv]; rfl
      · refine .plain (n := .text_quot2) hx ?_
        simp only [setup, setupExpr, hv]; rfl

theorem builds_doubled {q : Option Char} {c : Char} {rest : Str} (hc : c = '$' ∨ c = '{' ∨ c = '}') :
    Bd k (.alt [.ref .escape, .ref .embedding, .ref (textNT q)]) [c, c] rest [.str .escape [c]] := by
  refine .alt (.here (.plain (bs := []) (.rx ?_) ?_))
  · rcases hc with rfl | rfl | rfl <;> rfl
  · rcases hc with rfl | rfl | rfl <;> rfl

theorem builds_braces {q : Option Char} {w x w' rest : Str} {e : Expr} (hw : Blanks w) (hw' : Blanks w')
    (hx : w = [] → x.head? ≠ some '{') (hb : ∀ s, NoBlank (x ++ s)) (hr : ∀ c, rest.head? = some c → c ≠ '?' ∧ c ≠ '!')
    (h15 : ∀ k rest, After M U 15 rest → Bd k (.ref .ifelse_test) x rest [bx e]) :
    Bd k (.alt [.ref .escape, .ref .embedding, .ref (textNT q)]) ('{' :: (w ++ (x ++ (w' ++ ['}'])))) rest
      [bx (.root none e)] := by
  refine .alt (.there (no_escape (s := w ++ (x ++ (w' ++ ['}'])) ++ rest) ?_) (.here (.reduced rfl (.alt (.here (.reduced rfl ?_))))))
  · intro h0
    exfalso
    cases w with
    | nil =>
      cases x with
      | nil => exact absurd (hb [' '] ' ' rfl) (by decide)
      | cons a x =>
        simp only [List.nil_append, List.cons_append, List.head?_cons] at h0
        exact hx rfl h0
    | cons a w =>
      simp only [List.cons_append, List.head?_cons, Option.some.injEq] at h0
      rcases hw a (by simp) with h | h <;> rw [h] at h0 <;> exact absurd h0 (by decide)
  · refine .ofSeq (.step (.lit _ _) (.step (.ws hw (hb (w' ++ '}' :: rest))) (.step (builds_augment hw' (.cons rfl) (by simp)
      (fun k => h15 k (w' ++ '}' :: rest) (.closer (by simp) hw'))) (.step (.ws hw' (rest := '}' :: rest) (.cons rfl))
        (.step (.lit _ _) (.step (.opt_none (rest := rest) ?_) (.nil _)))))))
    refine .ref (.rx ?_)
    cases rest with
    | nil => rfl
    | cons c s =>
      obtain ⟨h1, h2⟩ := hr c rfl
      simp [RE.match?, reQualifier, RE.rests, h1, h2]

theorem NameEnd.of {t rest : Str} (h : ∀ c, (t ++ rest).head? = some c → nameChar c = false ∧ (s!!"([.?!").elem c = false) :
    NameEnd (t ++ rest) := fun c hc => (h c hc).1

theorem no_trailer {rest : Str} (h : ∀ c, rest.head? = some c → nameChar c = false ∧ (s!!"([.?!").elem c = false) :
    Fl (.ref .trailer) rest ∧ Fl (.ref .qualifier) rest := by
  cases rest with
  | nil => exact ⟨.first 200 rfl, .first 200 rfl⟩
  | cons c s =>
    have := (h c rfl).2
    simp only [List.elem_eq_mem, List.mem_cons, List.not_mem_nil, or_false, decide_eq_false_iff_not, not_or] at this
    obtain ⟨h1, h2, h3, h4, h5⟩ := this
    refine ⟨.ref (.alt (.cons (.ref (.seq1 (.lit1 h1))) (.cons (.ref (.seq1 (.lit1 h2)))
      (.cons (.ref (.seq1 (.lit1 h3))) (.nil _))))), .ref (.rx ?_)⟩
    simp [RE.match?, reQualifier, RE.rests, h4, h5]

theorem asTails_tail (ts : List Tail) : asTails (P := P) (ts.map .tail) = .ok (ts, none) := by
  induction ts with
  | nil => rfl
  | cons t ts ih => simp only [List.map_cons, asTails]; rw [ih]; rfl

theorem NoQual.tails (ts : List Tail) : NoQual (P := P) (ts.map .tail) := by
  intro q hq
  simp at hq

/-- The node of a variable with calls, indices and members. -/
def varExpr (n : Str) (ts : List Tail) : Expr :=
  match ts with
  | [] => .varUse n none
  | ts => .factor (.varUse n none) ts none

theorem builds_evar {q : Option Char} {n t' rest : Str} {ts : List Tail} (hn : Name n)
    (he : NameEnd (t' ++ rest)) (hr : ∀ c, rest.head? = some c → nameChar c = false ∧ (s!!"([.?!").elem c = false)
    (h : ∀ k, Bs k (.ref .trailer) t' rest (ts.map .tail)) :
    Bd k (.alt [.ref .escape, .ref .embedding, .ref (textNT q)]) ('$' :: (n ++ t')) rest
      [bx (.root none (varExpr n ts))] := by
  obtain ⟨c, s, hcs, hc, _⟩ := hn.start
  have hne := nameStart_ne hc
  have hv : ∀ k, Bd k (.ref .factor_var) (n ++ t') rest [bx (varExpr n ts)] := by
    intro k
    cases ts with
    | nil =>
      refine .single rfl ?_
      show Bd k _ _ _ [bx (.varUse n none)]
      exact .ofSeq (.step (builds_var hn he) (.step (.star (h _)) (.step (.opt_none (no_trailer hr).2) (.nil _))))
    | cons a ts =>
      refine .several (bs := bx (.varUse n none) :: (a :: ts).map .tail) rfl ?_ (by simp) ?_
      · exact .ofSeq (.step (builds_var hn he) (.step (.star (h _)) (.step (.opt_none (no_trailer hr).2) (.nil _))))
      · rw [attachQuals_id (.cons (by simp [bx]) (.tails _))]
        simp only [setup, setupExpr, bx, asTails_tail]; rfl
  have hev : ∀ k, Bd k (.ref .expr_var) (n ++ t') rest [bx (.root none (varExpr n ts))] := by
    intro k
    refine .plain (bs := [bx (varExpr n ts)]) ?_ (by rw [attachQuals_one]; rfl)
    exact .ofSeq (.step (hv _) (.step (.lit _ _) (.nil _)))
  have hnd : Fl (.ref .mark_eval) ((n ++ t') ++ rest) := by rw [hcs]; exact .ref (.lit1 hne.2.2.1)
  refine .alt (.there (no_escape (s := n ++ t' ++ rest) ?_) (.here (.reduced rfl (.alt (.there (.first 200 rfl) (.here (.reduced rfl ?_)))))))
  · intro h0
    rw [hcs] at h0
    simp only [List.cons_append, List.head?_cons, Option.some.injEq] at h0
    exact absurd h0 hne.2.2.1
  · exact .ofSeq (.step (.ignored (n := .mark_eval) rfl (.lit _ _)) (.step (.not hnd) (.step (hev _) (.nil _))))

end
end Verif
