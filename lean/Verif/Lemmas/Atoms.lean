import Verif.Lemmas.After

/-! Atoms: how literals, names and expressions in brackets are read. -/

namespace Verif
open Py Spec

/-- The class of the node is a root of expressions. -/
def flag : Expr → Bool
  | .root _ _ => true
  | _ => false

/-- The node of an expression. -/
def bx {P : Type} (e : Expr) : Built P := .expr (flag e) e

section
variable {P : Type}

theorem asExprs_bx (es : List Expr) : asExprs (P := P) (es.map bx) = .ok es := by
  induction es with
  | nil => rfl
  | cons e es ih => simp only [List.map_cons, bx, asExprs]; rw [ih]; rfl

/-- No qualifiers. -/
def NoQual (bs : List (Built P)) : Prop := ∀ q, Built.qual q ∉ bs

theorem attachQuals_id {bs : List (Built P)} (h : NoQual bs) : attachQuals bs = bs := by
  induction bs with
  | nil => rfl
  | cons b bs ih =>
    have h' : NoQual bs := fun q hq => h q (by simp [hq])
    cases bs with
    | nil => cases b <;> first | rfl | (rename_i r e; cases r <;> cases e <;> rfl)
    | cons c bs =>
      have hc : ∀ q, c ≠ .qual q := fun q hq => h q (by simp [hq])
      have key : attachQuals (b :: c :: bs) = b :: attachQuals (c :: bs) := by
        rw [attachQuals]
        rintro o e q rest _ hq
        simp only [List.cons.injEq] at hq
        exact absurd hq.1 (hc q)
      rw [key, ih h']

theorem NoQual.nil : NoQual ([] : List (Built P)) := by intro q h; cases h

theorem NoQual.cons {b : Built P} {bs : List (Built P)} (hb : ∀ q, b ≠ .qual q) (h : NoQual bs) : NoQual (b :: bs) := by
  intro q hq
  rcases List.mem_cons.1 hq with hq | hq
  · exact hb q hq.symm
  · exact h q hq

theorem NoQual.append {as bs : List (Built P)} (h : NoQual as) (h' : NoQual bs) : NoQual (as ++ bs) := by
  intro q hq
  rcases List.mem_append.1 hq with hq | hq
  · exact h q hq
  · exact h' q hq

theorem NoQual.bx (es : List Expr) : NoQual (es.map (Verif.bx (P := P))) := by
  intro q hq
  simp [Verif.bx] at hq

end

section
variable {M : Marks} {U : Uni} {P : Type} {names : Str → Option Char} {full : Str} {k : Nat}

local notation "Bd" => Builds M U P names full
local notation "Bq" => BuildsSeq M U P names full
local notation "Fl" => Fails (rule M U)

theorem Builds.conv {p : Peg NT} {x x' rest : Str} {bs bs' : List (Built P)} (h : Bd k p x rest bs)
    (hx : x' = x := by simp) (hb : bs' = bs := by simp) : Bd k p x' rest bs' := by
  subst hx hb; exact h

theorem BuildsSeq.step {p : Peg NT} {ps : List (Peg NT)} {x y r rest : Str} {bs cs : List (Built P)}
    (h : Bd k p x r bs) (h' : Bq (k + x.length) ps y rest cs)
    (hr : r = y ++ rest := by first | rfl | simp) : Bq k (p :: ps) (x ++ y) rest (bs ++ cs) := by
  subst hr; exact .cons h h'

theorem Builds.ofSeq {ps : List (Peg NT)} {x z rest : Str} {bs bs' : List (Built P)} (h : Bq k ps x rest bs)
    (hz : z = x := by simp) (hb : bs' = bs := by simp) : Bd k (.seq ps) z rest bs' := by
  subst hz hb; exact .seq h

/-- What may follow an atom. -/
structure Apart (U : Uni) (t rest : Str) : Prop where
  ends : ∀ c, rest.head? = some c → nameChar c = false ∧ reDigit U c = false ∧ c ≠ '\'' ∧ c ≠ '"'
  point : ∀ c, t.head? = some c → ascDigit c = true → rest.head? ≠ some '.'

theorem Apart.nameEnd {t rest : Str} (h : Apart U t rest) : NameEnd rest := fun c hc => (h.ends c hc).1

theorem reDigit_of {c : Char} (h : ascDigit c = true) : reDigit U c = true := by simp [reDigit, h]

theorem match_exponent {x rest : Str} (h : IsExponent x) (ha : ∀ c, rest.head? = some c → nameChar c = false ∧ reDigit U c = false) :
    (RE.opt (.seq (.chr (fun c => c == 'e' || c == 'E'))
      (.seq (RE.opt (.chr (fun c => c == '+' || c == '-'))) (RE.many1 (reDigit U))))).match? (x ++ rest) = some rest := by
  have hrest : inClass (reDigit U) rest.head? = false := inClass_false fun c hc => (ha c hc).2
  rcases h with rfl | ⟨e, sign, ds, he, hs, hne, hd, rfl⟩
  · rw [RE.opt, RE.match?_right]
    · rfl
    · refine RE.match?_seq_none ?_
      cases rest with
      | nil => rfl
      | cons c s =>
        have hc := (ha c rfl).1
        have h1 : c ≠ 'e' := by rintro rfl; revert hc; decide
        have h2 : c ≠ 'E' := by rintro rfl; revert hc; decide
        simp [RE.match?, RE.rests, h1, h2]
  · have hm := RE.match?_many1 (rest := rest) hne (fun c hc => reDigit_of (U := U) (hd c hc)) hrest
    refine RE.match?_left (RE.match?_seq (m := sign ++ ds ++ rest) ?_ (RE.match?_seq (m := ds ++ rest) ?_ hm))
    · rcases he with rfl | rfl <;> simp [RE.match?, RE.rests]
    · rcases hs with rfl | rfl | rfl
      · cases ds with
        | nil => exact absurd rfl hne
        | cons c ds =>
          have hc := hd c (by simp)
          have h1 : c ≠ '+' := by rintro rfl; revert hc; decide
          have h2 : c ≠ '-' := by rintro rfl; revert hc; decide
          simp [RE.opt, RE.match?, RE.rests, h1, h2]
      · refine RE.match?_left ?_
        simp [RE.match?, RE.rests]
      · refine RE.match?_left ?_
        simp [RE.match?, RE.rests]

/-- What may follow the digits of a number. -/
theorem exponent_follows {d x rest : Str} (h : IsExponent x) (ha : Apart U (d ++ x) rest) (hd : ∃ c s, d = c :: s ∧ ascDigit c = true) :
    inClass (reDigit U) (x ++ rest).head? = false ∧ (x ++ rest).head? ≠ some '.' := by
  rcases h with rfl | ⟨e, sign, ds, he, hs, hne, _, rfl⟩
  · obtain ⟨c, s, rfl, hc⟩ := hd
    exact ⟨inClass_false fun c hc => (ha.ends c hc).2.1, ha.point c rfl hc⟩
  · rcases he with rfl | rfl <;> simp [inClass, reDigit, ascDigit]

theorem match_number {t rest : Str} (h : IsNumber t) (ha : Apart U t rest) :
    (reNumber U).match? (t ++ rest) = some rest := by
  obtain ⟨d, x, ⟨ds, hne, hd, ht⟩, hx, rfl⟩ := h
  have hds : ∀ c ∈ ds, reDigit U c = true := fun c hc => reDigit_of (hd c hc)
  have hdot : ∀ s, (RE.seq (.chr (· == '.')) (RE.many1 (reDigit U))).match? (ds ++ s) = none := by
    cases ds with
    | nil => exact absurd rfl hne
    | cons c ds =>
      have hc : c ≠ '.' := by
        intro hc; have := hd c (by simp); rw [hc] at this; revert this; decide
      refine fun s => RE.match?_seq_none ?_
      simp [RE.match?, RE.rests, hc]
  have hfirst : ∃ c s, d = c :: s ∧ ascDigit c = true := by
    cases ds with
    | nil => exact absurd rfl hne
    | cons c ds => rcases ht with rfl | ⟨fs, _, rfl⟩ <;> exact ⟨c, _, rfl, hd c (by simp)⟩
  obtain ⟨hrest, hpoint⟩ := exponent_follows hx ha hfirst
  rw [List.append_assoc]
  refine RE.match?_seq (m := x ++ rest) ?_ (match_exponent hx fun c hc => ⟨(ha.ends c hc).1, (ha.ends c hc).2.1⟩)
  generalize x ++ rest = r at hrest hpoint
  rcases ht with rfl | ⟨fs, hfs, rfl⟩
  · rw [RE.match?_right (hdot _)]
    refine RE.match?_seq (RE.match?_many1 hne hds hrest) ?_
    rw [RE.opt, RE.match?_right]
    · rfl
    · refine RE.match?_seq_none ?_
      cases r with
      | nil => rfl
      | cons c s =>
        have hc : c ≠ '.' := by simpa using hpoint
        simp [RE.match?, RE.rests, hc]
  · rw [List.append_assoc, RE.match?_right (hdot _)]
    refine RE.match?_seq (RE.match?_many1 (rest := '.' :: fs ++ r) hne hds ?_) ?_
    · simp [inClass, reDigit, ascDigit]
    · refine RE.match?_left (RE.match?_seq (m := fs ++ r) ?_
        (RE.match?_many (fun c hc => reDigit_of (hfs c hc)) hrest))
      simp [RE.match?, RE.rests]

theorem reads_number {t rest : Str} (h : IsNumber t) (ha : Apart U t rest) :
    Bd k (.ref .atom) t rest [bx (.number t)] := by
  refine .reduced rfl (.alt (.here (.reduced rfl (.alt (.here (.plain (bs := []) (.rx ?_) rfl))))))
  exact match_number h ha

theorem reads_raw {q : Char} {t rest : Str} (hq : q = '\'' ∨ q = '"') (ht : q ∉ t) :
    Bd k (.ref .atom) ('r' :: q :: (t ++ [q])) rest [bx (.strLit t)] := by
  have hm : (reRaw q).match? (('r' :: q :: (t ++ [q])) ++ rest) = some rest := by
    refine RE.match?_seq (m := t ++ [q] ++ rest) ?_ (RE.match?_seq (m := q :: rest) ?_ ?_)
    · exact RE.match?_word ['r', q] _
    · have := RE.match?_many (p := (· != q)) (x := t) (rest := q :: rest) ?_ ?_
      · simpa using this
      · intro c hc
        have : c ≠ q := fun h => ht (h ▸ hc)
        simpa using this
      · simp [inClass]
    · simp [RE.match?, RE.rests]
  have hv : (('r' :: q :: (t ++ [q])).drop 2).dropLast = t := by simp
  refine .reduced rfl (.alt (.here (.reduced rfl (.alt (.there (.first 200 rfl) (.here (.reduced rfl (.alt (.there ?_ (.here
    (.plain (bs := []) (.alt ?_) ?_)))))))))))
  · exact .first 200 rfl
  · rcases hq with rfl | rfl
    · exact .here (.rx hm)
    · refine .there (.rx (RE.match?_seq_none (RE.match?_word_none (x := ['r', '\'']) ?_))) (.here (.rx hm))
      rfl
  · simp only [setup, setupExpr, hv]
    rfl

theorem reads_true {rest : Str} : Bd k (.ref .atom) (s!!"True") rest [bx (.boolean true)] := by
  refine .reduced rfl (.alt (.here (.reduced rfl (.alt ?_))))
  refine .there (.first 200 rfl) (.there (.first 200 rfl) (.here (.plain (bs := []) (.alt (.here (.lit _ _))) rfl)))

theorem reads_false {rest : Str} : Bd k (.ref .atom) (s!!"False") rest [bx (.boolean false)] := by
  refine .reduced rfl (.alt (.here (.reduced rfl (.alt ?_))))
  refine .there (.first 200 rfl) (.there (.first 200 rfl) (.here (.plain (bs := []) (.alt
    (.there (.first 200 rfl) (.here (.lit _ _)))) ?_)))
  rfl

theorem reads_none {rest : Str} : Bd k (.ref .atom) (s!!"None") rest [bx .noneLit] := by
  refine .reduced rfl (.alt (.here (.reduced rfl (.alt ?_))))
  exact .there (.first 200 rfl) (.there (.first 200 rfl) (.there (.first 200 rfl)
    (.here (.plain (bs := []) (.lit _ _) rfl))))

/-- Rule of the text of strings. -/
def textNT : Option Char → NT
  | none => .text
  | some c => if c = '\'' then .text_quot1 else .text_quot2

theorem reads_string {q : Char} {t rest : Str} {es : List Expr} {bs : List (Built P)} (hq : q = '\'' ∨ q = '"')
    (hbs : asParts (attachQuals bs) = .ok es)
    (h : ∀ k, BuildsStar M U P names full k (.alt [.ref .escape, .ref .embedding, .ref (textNT (some q))])
      t (q :: rest) bs) :
    Bd k (.ref .atom) (q :: (t ++ [q])) rest [bx (.format es)] := by
  refine .reduced rfl (.alt (.here (.reduced rfl (.alt (.there ?_ (.here (.reduced rfl (.alt (.here
    (.plain (bs := bs) (.alt ?_) ?_))))))))))
  · rcases hq with rfl | rfl <;> exact .first 200 rfl
  · rcases hq with rfl | rfl
    · refine .here (.reduced rfl ?_)
      exact .ofSeq (.step (.lit _ _) (.step (.star (h _)) (.step (.lit _ _) (.nil _))))
    · refine .there (.first 200 rfl) (.here (.reduced rfl ?_))
      exact .ofSeq (.step (.lit _ _) (.step (.star (h _)) (.step (.lit _ _) (.nil _))))
  · simp only [setup, setupExpr, hbs]; rfl

theorem lit_fails_name {l n rest : Str} (hl : ∀ c ∈ l, nameChar c = true) (hn : ¬ l <+: n) (he : NameEnd rest) :
    Fl (.lit l) (n ++ rest) := by
  refine .lit ?_
  cases hp : l.isPrefixOf (n ++ rest) with
  | false => rfl
  | true =>
    exfalso
    have hp : l <+: n ++ rest := by simpa using hp
    by_cases hlen : l.length ≤ n.length
    · exact hn (List.prefix_of_prefix_length_le hp (List.prefix_append _ _) hlen)
    · have hnl : n <+: l := List.prefix_of_prefix_length_le (List.prefix_append _ _) hp (by omega)
      obtain ⟨m, rfl⟩ := hnl
      cases m with
      | nil => simp at hlen
      | cons c m =>
        have : (c :: m) <+: rest := by
          obtain ⟨u, hu⟩ := hp
          exact ⟨u, by simpa using hu⟩
        obtain ⟨u, rfl⟩ := this
        have h1 := he c rfl
        have h2 := hl c (by simp)
        rw [h1] at h2; cases h2

theorem ascii_not_digit {c : Char} (h : nameStart c = true) (h' : c.toNat < 128) : reDigit U c = false := by
  have : ascDigit c = false := by
    simp only [nameStart, azI, Bool.or_eq_true, Bool.and_eq_true, decide_eq_true_eq, beq_iff_eq] at h
    simp only [ascDigit, Bool.and_eq_false_iff, decide_eq_false_iff_not]
    rcases h with h | rfl
    · omega
    · decide
  simp only [reDigit, this, Bool.false_or, Bool.and_eq_false_iff, decide_eq_false_iff_not]
  exact .inl (by omega)

/-- A name is not a number. -/
theorem Fails.number_name {c : Char} {s : Str} (h : nameStart c = true) (h' : c.toNat < 128) :
    Fl (.ref .number) (c :: s) := by
  have h1 := ascii_not_digit (U := U) h h'
  have h2 : c ≠ '.' := by rintro rfl; revert h; decide
  refine .ref (.rx (RE.match?_seq_none ?_))
  rw [RE.match?_right (RE.match?_seq_none (by simp [RE.match?, RE.rests, h2]))]
  refine RE.match?_seq_none (RE.match?_seq_none ?_)
  simp [RE.match?, RE.rests, h1]

theorem nameStart_ne {c : Char} (h : nameStart c = true) :
    c ≠ '\'' ∧ c ≠ '"' ∧ c ≠ '$' ∧ c ≠ '%' ∧ c ≠ '(' ∧ c ≠ '[' ∧ c ≠ '{' ∧ c ≠ '-' ∧ c ≠ '.' ∧ c ≠ ' ' ∧ c ≠ '\t' := by
  refine ⟨?_, ?_, ?_, ?_, ?_, ?_, ?_, ?_, ?_, ?_, ?_⟩ <;> (rintro rfl; revert h; decide)

theorem Fails.lit1 {a c : Char} {l s : Str} (hne : c ≠ a) : Fl (.lit (a :: l)) (c :: s) := by
  refine .lit ?_
  simp [List.isPrefixOf, Ne.symm hne]

theorem Fails.string_name {n rest : Str} (hn : Name n) (he : ∀ c, rest.head? = some c → c ≠ '\'' ∧ c ≠ '"') :
    Fl (.ref .string) (n ++ rest) := by
  obtain ⟨c, s, rfl, hc, _⟩ := hn.start
  have hne := nameStart_ne hc
  have hraw : ∀ q, (q = '\'' ∨ q = '"') → Fl (.rx (reRaw q)) (c :: s ++ rest) := by
    intro q hq
    refine .rx (RE.match?_seq_none (RE.match?_word_none ?_))
    cases hp : [('r' : Char), q].isPrefixOf (c :: s ++ rest) with
    | false => rfl
    | true =>
      exfalso
      cases s with
      | nil =>
        cases rest with
        | nil => simp [List.isPrefixOf] at hp
        | cons d rest =>
          simp only [List.cons_append, List.nil_append, List.isPrefixOf, Bool.and_true, Bool.and_eq_true, beq_iff_eq] at hp
          have := he d rfl
          rcases hq with hq | hq <;> rw [hq] at hp <;> simp [← hp.2] at this
      | cons d s =>
        simp only [List.cons_append, List.isPrefixOf, Bool.and_true, Bool.and_eq_true, beq_iff_eq] at hp
        have := hn.chars d (by simp)
        rw [← hp.2] at this
        rcases hq with rfl | rfl <;> revert this <;> decide
  refine .ref (.alt (.cons (.ref (.alt (.cons (.ref (.seq1 (.lit1 hne.1))) (.cons (.ref (.seq1 (.lit1 hne.2.1)))
    (.nil _))))) (.cons (.ref (.alt (.cons (hraw _ (.inl rfl)) (.cons (hraw _ (.inr rfl)) (.nil _))))) (.nil _))))

theorem Fails.literal_name {n rest : Str} (hn : VarName n) (ha : Apart U n rest) : Fl (.ref .literal) (n ++ rest) := by
  obtain ⟨c, s, hcs, hc, hc'⟩ := hn.start
  have h1 : Fl (.ref .number) (n ++ rest) := by rw [hcs]; exact .number_name hc hc'
  have h2 : Fl (.ref .string) (n ++ rest) := .string_name hn.toName fun c hc => (ha.ends c hc).2.2
  have h3 : Fl (.ref .boolean) (n ++ rest) :=
    .ref (.alt (.cons (lit_fails_name (by decide) hn.notLiteral.1 ha.nameEnd)
      (.cons (lit_fails_name (by decide) hn.notLiteral.2.1 ha.nameEnd) (.nil _))))
  have h4 : Fl (.ref .none) (n ++ rest) := .ref (lit_fails_name (by decide) hn.notLiteral.2.2 ha.nameEnd)
  exact .ref (.alt (.cons h1 (.cons h2 (.cons h3 (.cons h4 (.nil _))))))

theorem builds_var {n rest : Str} (hn : Name n) (he : NameEnd rest) :
    Bd k (.ref .var_use) n rest [bx (.varUse n none)] := by
  obtain ⟨c, s, hcs, hc, hc'⟩ := hn.start
  have hne := nameStart_ne hc
  refine .plain (bs := [.str .name_id n]) ?_ ?_
  · refine .ofSeq (.step (.opt_none (rest := n ++ rest) ?_) (.step (.name hn he) (.step (.lit _ _) (.nil _))))
    rw [hcs]; exact .ref (.lit1 hne.2.2.1)
  · simp only [setup, setupExpr]
    have : n.head? ≠ some '$' := by rw [hcs]; simp [hne.2.2.1]
    simp [this, bx, flag]

theorem builds_dollar {n rest : Str} (hn : Name n) (he : NameEnd rest) :
    Bd k (.ref .var_use) ('$' :: n) rest [bx (.varUse n none)] := by
  refine .plain (bs := [.str .name_id n]) ?_ rfl
  exact .ofSeq (.step (.opt_some (.ignored (n := .mark_eval) rfl (.lit _ _))) (.step (.name hn he) (.step (.lit _ _) (.nil _))))

theorem reads_var {n rest : Str} (hn : VarName n) (ha : Apart U n rest) :
    Bd k (.ref .atom) n rest [bx (.varUse n none)] :=
  .reduced rfl (.alt (.there (.literal_name hn ha) (.here (builds_var hn.toName ha.nameEnd))))

theorem reads_dollar {n rest : Str} (hn : Name n) (he : NameEnd rest) :
    Bd k (.ref .atom) ('$' :: n) rest [bx (.varUse n none)] :=
  .reduced rfl (.alt (.there (.first 200 rfl) (.here (builds_dollar hn he))))

theorem reads_tag {n rest : Str} (hn : Name n) (he : NameEnd rest) :
    Bd k (.ref .atom) ('%' :: n) rest [bx (.tagUse ('%' :: n) none)] := by
  refine .reduced rfl (.alt (.there (.first 200 rfl) (.there (.first 200 rfl) (.here ?_))))
  refine .plain (bs := [.str .name_id n]) ?_ rfl
  exact .ofSeq (.step (.ignored (n := .mark_def) rfl (.lit _ _)) (.step (.name hn he) (.step (.lit _ _) (.nil _))))

end
end Verif
