import Verif.Lemmas.Assigns

/-! Attributes and tags. -/

set_option linter.unusedSectionVars false

namespace Verif
open Py Spec

section
variable {M : Marks} {U : Uni} {P : Type} {names : Str → Option Char} {full : Str} {k : Nat}

local notation "Bd" => Builds M U P names full
local notation "Bq" => BuildsSeq M U P names full
local notation "Bs" => BuildsStar M U P names full
local notation "Bm" => Many M U P names full
local notation "Fl" => Fails (rule M U)
local notation "Fq" => FailsSeq (rule M U)

/-! Values -/

/-- The end of a value. -/
def StrictEnd (U : Uni) (rest : Str) : Prop := ∀ c, rest.head? = some c → endChar U c = true

theorem endChar_iff {c : Char} : endChar U c = true ↔
    nameChar c = false ∧ reDigit U c = false ∧ (s!!"'\"?!(.[").elem c = false := by
  simp only [endChar, Bool.and_eq_true, Bool.not_eq_true', and_assoc]

theorem StrictEnd.sym {rest : Str} (h : StrictEnd U rest) :
    ∀ c, rest.head? = some c → nameChar c = false ∧ (s!!"([.?!").elem c = false := by
  intro c hc
  obtain ⟨h1, _, h3⟩ := endChar_iff.1 (h c hc)
  refine ⟨h1, ?_⟩
  simp only [List.elem_eq_mem, decide_eq_false_iff_not, List.mem_cons, List.not_mem_nil, or_false, not_or] at h3 ⊢
  obtain ⟨_, _, a, b, c, d, e⟩ := h3
  exact ⟨c, e, d, a, b⟩

theorem StrictEnd.apart {t rest : Str} (h : StrictEnd U rest) : Apart U t rest := by
  refine ⟨fun c hc => ?_, fun _ _ _ hc => ?_⟩
  · obtain ⟨h1, h2, h3⟩ := endChar_iff.1 (h c hc)
    refine ⟨h1, h2, ?_, ?_⟩ <;> (rintro rfl; simp at h3)
  · have := h _ hc
    simp [endChar] at this

theorem StrictEnd.nameEnd {rest : Str} (h : StrictEnd U rest) : NameEnd rest := fun c hc => (h.sym c hc).1

theorem qual_sym {q : Option Qual} {rest : Str} (h : StrictEnd U rest) :
    Fl (.ref .trailer) (qualText q ++ rest) ∧ (q = none → Fl (.ref .qualifier) rest) := by
  refine ⟨?_, fun _ => (no_trailer h.sym).2⟩
  cases q with
  | none => exact (no_trailer h.sym).1
  | some q => cases q <;> exact .first 200 rfl

theorem builds_strict {t t' rest : Str} {a : Expr} {ts : List Tail} {q : Option Qual} (hne : ts ≠ [] ∨ q ≠ none)
    (hr : ts ≠ [] ∨ ∀ p e, a ≠ .root p e) (ha : StrictEnd U rest)
    (h1 : ∀ k, Bd k (.ref .atom) t (t' ++ (qualText q ++ rest)) [bx a])
    (h2 : ∀ k, Bs k (.ref .trailer) t' (qualText q ++ rest) (ts.map .tail)) :
    Bd k (.ref .factor_strict) (t ++ (t' ++ qualText q)) rest [bx (.factor a ts q)] := by
  refine .several (bs := bx a :: (ts.map .tail ++ qualB q)) rfl ?_ ?_ ?_
  · exact .ofSeq (.step (h1 _) (.step (.star (h2 _)) (.step (builds_qual (q := q) (qual_sym ha).2) (.nil _))))
  · cases ts with
    | nil =>
      cases q with
      | none => simp at hne
      | some q => simp [qualB]
    | cons t ts => simp
  · rw [attachQuals_factor hr]
    simp only [setup, setupExpr, bx, asTails_qual]; rfl

theorem reads_strict {t rest : Str} {e : Expr} (h : Written M names 1 t e) (hr : StrictEnd U rest) :
    Bd k (.ref .factor_strict) t rest [bx e] := by
  cases h with
  | @up l t e h hl =>
    refine .single rfl (.ofSeq (.step (written_reads M U P names full h _ rest hr.apart) (.step (x := []) (r := rest) (.star (.nil (no_trailer hr.sym).1))
      (.step (x := []) (r := rest) (.opt_none (no_trailer hr.sym).2) (.nil _)))))
  | @chain l t t' h os es h1 h2 hne => exact absurd (chain_level h2 hne) (by decide)
  | @tails t t' a ts q h1 h2 hne hp =>
    have := builds_strict (M := M) (U := U) (P := P) (names := names) (full := full) (k := k) (q := q) (.inl hne) (.inl hne) hr
      (fun k => written_reads M U P names full h1 k _ (apart_tails h2 hne hp))
      (fun k => tails_reads M U P names full h2 _ true tailLike_trailer (by simp) k _ (qual_sym hr).1 (qual_nameEnd hr.nameEnd))
    simpa using this
  | @qualified t a q h1 hn =>
    have := builds_strict (M := M) (U := U) (P := P) (names := names) (full := full) (k := k) (t' := []) (ts := []) (q := some q)
      (.inr (by simp)) (.inr hn) hr
      (fun k => written_reads M U P names full h1 k _ apart_qual) (fun k => .nil (qual_sym hr).1)
    simpa using this

theorem builds_embedvar {n t rest : Str} {ts : List Tail} {q : Option Qual} (hn : Name n) (h : Tails M names t ts)
    (hr : StrictEnd U rest) :
    Bd k (.ref .embedding) ('$' :: (n ++ (t ++ qualText q))) rest [bx (.root none (qualVar n ts q))] := by
  obtain ⟨c, s, hcs, hc, _⟩ := hn.start
  have hne := nameStart_ne hc
  have he : NameEnd (t ++ (qualText q ++ rest)) := tails_nameEnd h (qual_nameEnd hr.nameEnd)
  have ht : ∀ k, Bs k (.ref .trailer) t (qualText q ++ rest) (ts.map .tail) := fun k =>
    tails_reads M U P names full h _ true tailLike_trailer (by simp) k _ (qual_sym hr).1 (qual_nameEnd hr.nameEnd)
  have hs : ∀ k, Bd k (rule M U .factor_var) (n ++ (t ++ qualText q)) rest (bx (.varUse n none) :: (ts.map .tail ++ qualB q)) := fun k =>
    .ofSeq (.step (builds_var hn he) (.step (.star (ht _)) (.step (builds_qual (q := q) (qual_sym hr).2) (.nil _))))
  have hv : ∀ k, Bd k (.ref .factor_var) (n ++ (t ++ qualText q)) rest [bx (qualVar n ts q)] := by
    intro k
    by_cases h0 : ts = [] ∧ q = none
    · obtain ⟨rfl, rfl⟩ := h0
      exact .single rfl (hs k)
    · have hx : qualVar n ts q = .factor (.varUse n none) ts q := by
        cases ts <;> cases q <;> simp_all [qualVar]
      rw [hx]
      refine .several rfl (hs k) ?_ ?_
      · cases ts <;> cases q <;> simp_all [qualB]
      · rw [attachQuals_factor (.inr (by simp))]
        simp only [setup, setupExpr, bx, asTails_qual]; rfl
  have hev : ∀ k, Bd k (.ref .expr_var) (n ++ (t ++ qualText q)) rest [bx (.root none (qualVar n ts q))] := by
    intro k
    refine .plain (bs := [bx (qualVar n ts q)]) ?_ (by rw [attachQuals_one]; rfl)
    exact .ofSeq (.step (hv _) (.step (.lit _ _) (.nil _)))
  have hnd : Fl (.ref .mark_eval) ((n ++ (t ++ qualText q)) ++ rest) := by rw [hcs]; exact .ref (.lit1 hne.2.2.1)
  refine .reduced rfl (.alt (.there (.first 200 rfl) (.here (.reduced rfl ?_))))
  exact .ofSeq (.step (x := ['$']) (.ignored (n := .mark_eval) rfl (.lit _ _)) (.step (.not hnd) (.step (hev _) (.nil _))))

theorem builds_embedbraces {w x w' rest : Str} {e : Expr} (hw : Blanks w) (hw' : Blanks w') (h : Written M names 15 x e)
    (hr : ∀ c, rest.head? = some c → c ≠ '?' ∧ c ≠ '!') :
    Bd k (.ref .embedding) ('{' :: (w ++ (x ++ (w' ++ ['}'])))) rest [bx (.root none e)] := by
  refine .reduced rfl (.alt (.here (.reduced rfl ?_)))
  refine .ofSeq (.step (.lit _ _) (.step (.ws hw (written_noBlank h (s := w' ++ '}' :: rest))) (.step (builds_augment hw' (.cons rfl) (by simp)
      (fun k => reads15 (by omega) h (written_reads M U P names full h) k (w' ++ '}' :: rest) (.closer (by simp) hw'))) (.step (.ws hw' (rest := '}' :: rest) (.cons rfl))
        (.step (.lit _ _) (.step (.opt_none (rest := rest) ?_) (.nil _)))))))
  refine .ref (.rx ?_)
  cases rest with
  | nil => rfl
  | cons c s =>
    obtain ⟨h1, h2⟩ := hr c rfl
    simp [RE.match?, reQualifier, RE.rests, h1, h2]

theorem StrictEnd.noQual {rest : Str} (h : StrictEnd U rest) : ∀ c, rest.head? = some c → c ≠ '?' ∧ c ≠ '!' := by
  intro c hc
  have := (h.sym c hc).2
  constructor <;> (rintro rfl; simp at this)

theorem reads_value {t rest : Str} {e : Expr} (h : Spec.Value M names t e) (hr : StrictEnd U rest) :
    Bd k (.ref .value_of_attr) t rest [bx e] := by
  refine .reduced rfl (.alt ?_)
  cases h with
  | @factor t e h h1 h2 =>
    refine .there ?_ (.here (.plain (n := .expr_strict) (bs := [bx e]) (.ofSeq (.step (reads_strict h hr) (.step (.lit _ _) (.nil _))))
      (by rw [attachQuals_one]; rfl)))
    obtain ⟨c, s, rfl, _⟩ := written_first h
    exact no_embedding (by simpa using h2) (by simpa using h1)
  | var hn ht => exact .here (builds_embedvar hn ht hr)
  | braces hw h hw' => exact .here (builds_embedbraces hw hw' h hr.noQual)

/-! Names of attributes -/

theorem startSym_not_xml {c : Char} (h : startSym c = true) : xmlStart U c = false := by
  have h1 := startSym_not_name h
  have h2 : c.toNat < 128 := by
    simp only [startSym, Bool.or_eq_true, List.elem_eq_mem, List.mem_cons, List.not_mem_nil, or_false,
      decide_eq_true_eq] at h
    rcases h with (rfl | rfl | rfl | rfl | rfl | rfl | rfl | rfl) | h
    all_goals try decide
    simp only [ascDigit, Bool.and_eq_true, decide_eq_true_eq] at h
    omega
  simp only [nameStart, Bool.or_eq_false_iff] at h1
  have h3 : decide (128 ≤ c.toNat) = false := by simpa using h2
  simp [xmlStart, h1.1, h1.2, h3]

theorem nameChar_xml {c : Char} (h : nameChar c = true) : xmlEnd U c = true := by
  simp only [nameChar, Bool.or_eq_true] at h
  rcases h with (h | h) | h <;> simp [xmlEnd, xmlStart, h]

theorem match_xml {n rest : Str} (hn : XmlName n) (hr : ∀ c, rest.head? = some c → xmlMid U c = false) :
    (reXml U).match? (n ++ rest) = some rest := by
  obtain ⟨c, s, rfl, hc⟩ := hn.start
  have h1 : xmlStart U c = true := by
    simp only [nameStart, Bool.or_eq_true] at hc
    rcases hc with h | h <;> simp [xmlStart, h]
  have hend : inClass (xmlMid U) rest.head? = false := inClass_false hr
  have hno : (RE.chr (xmlEnd U)).rests rest = [] := by
    cases rest with
    | nil => rfl
    | cons d rest =>
      have := hr d rfl
      simp only [xmlMid, Bool.or_eq_false_iff] at this
      simp [RE.rests, this.1]
  have hs : ∀ d ∈ s, xmlMid U d = true := by
    intro d hd
    rcases hn.chars d (by simp [hd]) with h | rfl | rfl | rfl
    · simp [xmlMid, nameChar_xml h]
    all_goals simp [xmlMid, xmlEnd]
  simp only [reXml, RE.match?, RE.rests, List.cons_append, h1, if_true, List.flatMap_cons, List.flatMap_nil, List.append_nil, RE.opt]
  have key : ∀ s : Str, (∀ d ∈ s, xmlMid U d = true) → (∀ d, s.getLast? = some d → xmlEnd U d = true) →
      ((manyRests (xmlMid U) (s ++ rest)).flatMap (RE.chr (xmlEnd U)).rests ++ [s ++ rest]).head? = some rest := by
    intro s
    induction s with
    | nil =>
      intro _ _
      have : manyRests (xmlMid U) rest = [rest] := by
        cases rest with
        | nil => rfl
        | cons d rest => simp [manyRests, hr d rfl]
      simp [this, hno]
    | cons d s ih =>
      intro h h'
      have hd : xmlMid U d = true := h d (by simp)
      simp only [List.cons_append, manyRests, hd, if_true, List.flatMap_append, List.flatMap_cons, List.flatMap_nil, List.append_nil]
      by_cases hs : s = []
      · subst hs
        have he := h' d rfl
        have hm : manyRests (xmlMid U) rest = [rest] := by
          cases rest with
          | nil => rfl
          | cons d rest => simp [manyRests, hr d rfl]
        simp only [hm, List.flatMap_cons, List.flatMap_nil, List.append_nil, List.nil_append, hno]
        simp [RE.rests, he]
      · have := ih (fun x hx => h x (by simp [hx])) (fun x hx => h' x (by rw [List.getLast?_cons_of_ne_nil hs]; exact hx))
        rw [List.head?_append] at this
        cases hf : (List.flatMap (RE.chr (xmlEnd U)).rests (manyRests (xmlMid U) (s ++ rest))).head? with
        | some x => rw [hf] at this; simp only [List.head?_append, hf]; simpa using this
        | none =>
          rw [hf] at this
          simp only [Option.none_or, List.head?_cons, Option.some.injEq] at this
          have hl := congrArg List.length this
          simp at hl
          exact absurd hl hs
  refine key s hs ?_
  intro d hd
  rcases hn.chars d (by simp [List.mem_of_getLast? hd]) with h | rfl | rfl | rfl
  · exact nameChar_xml h
  · simp [xmlEnd]
  · simp [xmlEnd]
  · refine absurd ?_ hn.last
    cases s with
    | nil => simp at hd
    | cons x s => rw [List.getLast?_cons_of_ne_nil (by simp)]; exact hd

/-! Attributes -/

/-- The end of an attribute: no equality sign comes after blanks; a colon may follow if `b`. -/
structure AttrEnd (U : Uni) (b : Bool) (rest : Str) : Prop where
  strict : StrictEnd U rest
  xml : ∀ c, rest.head? = some c → xmlMid U c = false ∨ (c = ':' ∧ b = true)
  noEq : ∃ w s, rest = w ++ s ∧ Blanks w ∧ NoBlank s ∧ s.head? ≠ some '='
  marks : ∀ c, rest.head? = some c → c ≠ '#' ∧ c ≠ '-'

theorem no_xml {c : Char} {s : Str} (h : xmlStart U c = false) : Fl (.ref .name_xml) (c :: s) :=
  .ref (.rx (RE.match?_seq_none (by simp [RE.match?, RE.rests, h])))

theorem builds_xml {n rest : Str} (hn : XmlName n) (hr : ∀ c, rest.head? = some c → xmlMid U c = false) :
    Bd k (.ref .name_xml) n rest [.str .name_xml n] :=
  .plain (bs := []) (.rx (match_xml hn hr)) rfl

def attrB (x : Option Str × Expr) : Built P := .attr ⟨x.1, some x.2, false⟩

theorem value_root {t : Str} {e : Expr} (h : Spec.Value M names t e) : ∃ e', e = .root none e' := by
  cases h <;> exact ⟨_, rfl⟩

theorem builds_unnamed {t rest : Str} {e : Expr} (h : Spec.Value M names t e) (hr : StrictEnd U rest) :
    Bd k (.ref .attr_unnamed) t rest [attrB (none, e)] := by
  obtain ⟨e', rfl⟩ := value_root h
  refine .plain (bs := [bx (.root none e')]) (.ofSeq (.step (reads_value h hr) (.step (.lit _ _) (.nil _)))) ?_
  rw [attachQuals_one]; rfl

theorem value_head {t : Str} {e : Expr} (h : Spec.Value M names t e) :
    ∃ c s, t = c :: s ∧ (startSym c = true ∨ nameStart c = true) := by
  cases h with
  | factor h => exact written_first h
  | var => exact ⟨_, _, rfl, .inl rfl⟩
  | braces => exact ⟨_, _, rfl, .inl rfl⟩

theorem value_noBlank {t s : Str} {e : Expr} (h : Spec.Value M names t e) : NoBlank (t ++ s) := by
  obtain ⟨c, u, rfl, hc⟩ := value_head h
  exact .cons (hc.elim (fun h => (startSym_cases h).1) (fun h => (nameStart_cases h).1))

theorem name_xmlName {n : Str} (h : Name n) : XmlName n := by
  obtain ⟨c, s, rfl, hc, _⟩ := h.start
  refine ⟨⟨c, s, rfl, hc⟩, fun d hd => .inl (h.chars d hd), fun hl => ?_⟩
  have := h.chars ':' (List.mem_of_getLast? hl)
  exact absurd this (by decide)

theorem bare_value {n t : Str} {e : Expr} (hn : Name n) (h : Written M names 1 (n ++ t) e) :
    Spec.Value M names (n ++ t) (.root none e) := by
  obtain ⟨c, s, rfl, hc, _⟩ := hn.start
  have := nameStart_ne hc
  exact .factor h (by simp [this]) (by simp [this])

theorem attr_reads {t rest : Str} {n : Option Str} {e : Expr} {b : Bool} (h : Spec.Attr M names t n e b) (hr : AttrEnd U b rest) :
    Bd k (.ref .attr_val) t rest [attrB (n, e)] ∧ ∀ s, NoBlank (t ++ s) := by
  cases h with
  | @unnamed t e h hs =>
    refine ⟨.reduced rfl (.alt (.there ?_ (.here (builds_unnamed h hr.strict)))), fun s => value_noBlank h⟩
    obtain ⟨c, s, rfl, hc⟩ := value_head h
    have hc' := hs c rfl
    exact .ref (.seq1 (no_xml (startSym_not_xml (hc.resolve_right (by simp [hc'])))))
  | @bare n t e hn h ht =>
    have hv := bare_value hn h
    refine ⟨.reduced rfl (.alt (.there ?_ (.here (builds_unnamed hv hr.strict)))), fun s => value_noBlank hv⟩
    cases t with
    | cons c t =>
      have hc := ht c rfl
      simp only [List.elem_eq_mem, decide_eq_true_eq, List.mem_cons, List.not_mem_nil, or_false] at hc
      have he : Eats M U (.ref .name_xml) n (c :: (t ++ rest)) := (builds_xml (P := Unit) (names := fun _ => none) (full := []) (k := 0)
        (name_xmlName hn) (by intro d hd; simp only [List.head?_cons, Option.some.injEq] at hd; subst hd
                              rcases hc with rfl | rfl | rfl | rfl <;> rfl)).eats
      refine .ref (.seq (.after he (.after (x := []) (rest := c :: (t ++ rest)) (.ws .nil (.cons ?_)) (.head (.lit1 ?_))) (by simp)))
      · rcases hc with rfl | rfl | rfl | rfl <;> rfl
      · rcases hc with rfl | rfl | rfl | rfl <;> decide
    | nil =>
      obtain ⟨w, s, rfl, hw, hs, hq⟩ := hr.noEq
      have he : Eats M U (.ref .name_xml) n (w ++ s) := (builds_xml (P := Unit) (names := fun _ => none) (full := []) (k := 0)
        (name_xmlName hn) (by intro d hd; exact (hr.xml d hd).resolve_right (by simp))).eats
      refine .ref (.seq (.after he (.after (.ws hw hs) (.head ?_)) (by simp)))
      cases s with
      | nil => exact .lit rfl
      | cons c s => exact .lit1 (by simpa using hq)
  | @named n w1 w2 t e hn hw1 hw2 h =>
    obtain ⟨e', rfl⟩ := value_root h
    refine ⟨.reduced rfl (.alt (.here (.plain (n := .attr_named) (bs := [.str .name_xml n, bx (.root none e')]) ?_ ?_))), fun s => ?_⟩
    · refine .ofSeq (.step (r := w1 ++ ('=' :: (w2 ++ (t ++ rest)))) (builds_xml hn ?_) (.step (r := '=' :: (w2 ++ (t ++ rest))) (.ws hw1 (.cons rfl))
        (.step (r := w2 ++ (t ++ rest)) (.lit _ _) (.step (r := t ++ rest) (.ws hw2 (value_noBlank h)) (.step (reads_value h hr.strict) (.nil _))))))
      intro c hc
      cases w1 with
      | nil => simp only [List.nil_append, List.head?_cons, Option.some.injEq] at hc; subst hc; rfl
      | cons d w =>
        simp only [List.cons_append, List.head?_cons, Option.some.injEq] at hc
        subst hc
        rcases hw1 d (by simp) with rfl | rfl <;> rfl
    · rw [attachQuals_id (.cons (by simp) (.cons (by simp [bx]) .nil))]; rfl
    · obtain ⟨c, u, rfl, hc⟩ := hn.start
      exact .cons (nameStart_cases hc).1

/-! Shortcuts -/

theorem no_short {rest : Str} (h : ∀ c, rest.head? = some c → c ≠ '.' ∧ c ≠ '#') : Fl (.ref .attr_short) rest := by
  cases rest with
  | nil => exact .first 200 rfl
  | cons c s =>
    obtain ⟨h1, h2⟩ := h c rfl
    exact .ref (.seq1 (.alt (.cons (.lit1 h1) (.cons (.lit1 h2) (.nil _)))))

theorem AttrEnd.no_short {b : Bool} {rest : Str} (h : AttrEnd U b rest) : Fl (.ref .attr_short) rest :=
  Verif.no_short fun c hc => ⟨by rintro rfl; have := (h.strict.sym _ hc).2; simp at this, (h.marks c hc).1⟩

theorem short_text {n rest : Str} (hn : ShortName n) (hr : ∀ c, rest.head? = some c → nameChar c = false ∧ c ≠ '-') :
    reShort.match? (n ++ rest) = some rest := by
  refine RE.match?_many1 hn.1 (fun c hc => ?_) (inClass_false fun c hc => ?_)
  · rcases hn.2 c hc with h | rfl
    · simp only [nameChar, Bool.or_eq_true] at h ⊢
      exact .inl h
    · rfl
  · obtain ⟨h1, h2⟩ := hr c hc
    simp only [nameChar, Bool.or_eq_false_iff] at h1
    simp [h1, h2]

theorem short_mark {c : Char} {r : Str} (hc : c = '.' ∨ c = '#') : Bd k (.alt [.lit (s!!"."), .lit (s!!"#")]) [c] r [] := by
  rcases hc with rfl | rfl
  · exact .alt (.here (.lit _ _))
  · exact .alt (.there (.lit1 (by decide)) (.here (.lit _ _)))

theorem shorts_next {t : Str} {ss : List (Str × Expr)} (h : Shorts M names t ss) :
    t = [] ∨ ∃ c s, t = c :: s ∧ (c = '.' ∨ c = '#') := by
  cases h with
  | nil => exact .inl rfl
  | cons hc => exact .inr ⟨_, _, rfl, hc⟩
  | braces hc => exact .inr ⟨_, _, rfl, hc⟩

theorem shorts_two {c : Char} {t : Str} {ss : List (Str × Expr)} (h : Shorts M names (c :: t) ss) : t ≠ [] := by
  generalize ht : c :: t = t' at h
  cases h with
  | nil => cases ht
  | cons _ hn => cases ht; simp [hn.1]
  | braces => cases ht; simp

theorem shorts_reads {t : Str} {ss : List (Str × Expr)} (h : Shorts M names t ss) : ∀ {k : Nat} {rest : Str},
    (ss ≠ [] → ∃ b, AttrEnd U b rest) → Fl (.ref .attr_short) rest → Bm k (.ref .attr_short) t rest (ss.map fun x => attrB (some x.1, x.2)) := by
  induction h with
  | nil => exact fun _ hf => .nil hf
  | @cons c n t xs hc hn ht ih =>
    intro k rest hr hf
    have hnext : ∀ d, (t ++ rest).head? = some d → nameChar d = false ∧ d ≠ '-' := by
      rcases shorts_next ht with rfl | ⟨d, s, rfl, hd⟩
      · obtain ⟨b, hb⟩ := hr (by simp)
        exact fun d hd => ⟨hb.strict.nameEnd d hd, (hb.marks d hd).2⟩
      · intro d' hd'
        simp only [List.cons_append, List.head?_cons, Option.some.injEq] at hd'
        subst hd'
        rcases hd with rfl | rfl <;> exact ⟨rfl, by decide⟩
    refine .cons (x := c :: n) (y := t) (bs := [attrB (some (if c = '.' then s!!"class" else s!!"id"), .strLit n)]) (fun k => ?_) (by simp) (ih (fun _ => hr (by simp)) hf) (by rfl) (by simp) (by rfl)
    refine .plain (bs := [.expr false (.strLit n)]) (.ofSeq (.step (x := [c]) (r := n ++ (t ++ rest)) (short_mark hc) (.step (.alt (.here (.plain (n := .attr_short_lit) (bs := [])
      (.rx (short_text hn hnext)) rfl))) (.nil _)))) ?_
    · rcases hc with rfl | rfl <;> rfl
  | @braces c w x w' t e xs hc hw h hw' ht ih =>
    intro k rest hr hf
    have hnext : ∀ d, (t ++ rest).head? = some d → d ≠ '?' ∧ d ≠ '!' := by
      rcases shorts_next ht with rfl | ⟨d, s, rfl, hd⟩
      · obtain ⟨b, hb⟩ := hr (by simp)
        exact hb.strict.noQual
      · intro d' hd'
        simp only [List.cons_append, List.head?_cons, Option.some.injEq] at hd'
        subst hd'
        rcases hd with rfl | rfl <;> decide
    refine .cons (x := c :: '{' :: (w ++ (x ++ (w' ++ ['}'])))) (y := t) (r := t ++ rest)
      (bs := [attrB (some (if c = '.' then s!!"class" else s!!"id"), .root none e)]) (fun k => ?_) (by simp) (ih (fun _ => hr (by simp)) hf) (by rfl) (by simp) (by rfl)
    refine .plain (bs := [bx (.root none e)]) (.ofSeq (.step (x := [c]) (r := '{' :: (w ++ (x ++ (w' ++ ['}']))) ++ (t ++ rest)) (short_mark hc) (.step (.alt (.there ?_ (.here
      (builds_embedbraces hw hw' h hnext)))) (.nil _)))) ?_
    · exact .first 200 rfl
    · rw [attachQuals_one]
      rcases hc with rfl | rfl <;> rfl

/-! Lists of attributes -/

/-- An attribute, or several shortcuts, after blanks. -/
def attrPeg : Peg NT := .seq [.ref .space, .alt [.ref .attr_val, .plus (.ref .attr_short)]]

theorem no_atom {c : Char} {s : Str} (h : nameStart c = false) (hd : reDigit U c = false)
    (hs : (s!!"$%([{'\".").elem c = false) : Fl (.ref .atom) (c :: s) := by
  simp only [List.elem_eq_mem, decide_eq_false_iff_not, List.mem_cons, List.not_mem_nil, or_false, not_or] at hs
  obtain ⟨a1, a2, a3, a4, a5, a6, a7, a8⟩ := hs
  have hn : ∀ a : Char, nameStart a = true → c ≠ a := by
    rintro a ha rfl
    rw [h] at ha
    exact absurd ha (by decide)
  have h1 : Fl (.ref .literal) (c :: s) := by
    refine .ref (.alt (.cons (.ref (.rx ?_)) (.cons (.ref (.alt (.cons (.ref (.alt (.cons (.ref (.seq1 (.lit1 a6))) (.cons (.ref (.seq1 (.lit1 a7))) (.nil _)))))
      (.cons (.ref (.alt (.cons (.rx ?_) (.cons (.rx ?_) (.nil _))))) (.nil _))))) (.cons (.ref (.alt (.cons (.lit1 (hn _ rfl)) (.cons (.lit1 (hn _ rfl)) (.nil _)))))
        (.cons (.ref (.lit1 (hn _ rfl))) (.nil _))))))
    · exact RE.match?_nope (by simp [reNumber, RE.nope, RE.many1, inClass, hd, a8])
    · exact RE.match?_nope (by simp [reRaw, RE.nope, RE.word, inClass, hn 'r' rfl])
    · exact RE.match?_nope (by simp [reRaw, RE.nope, RE.word, inClass, hn 'r' rfl])
  exact .ref (.alt (.cons h1 (.cons (.ref (.seq (.after (x := []) (.opt_none (.ref (.lit1 a1))) (.head (.name_start h)))))
    (.cons (.ref (.seq1 (.ref (.lit1 a2)))) (.cons (.ref (.seq1 (.lit1 a3))) (.cons (.ref (.seq1 (.lit1 a3))) (.cons (.ref (.seq1 (.lit1 a4)))
      (.cons (.ref (.seq1 (.lit1 a5))) (.cons (.ref (.seq1 (.lit1 a5))) (.nil _))))))))))

theorem no_attr {c : Char} {s : Str} (h : xmlStart U c = false) (hd : reDigit U c = false)
    (hs : (s!!"$%([{'\".").elem c = false) : Fl (.ref .attr_val) (c :: s) := by
  have hn : nameStart c = false := by
    simp only [xmlStart, Bool.or_eq_false_iff] at h
    simp [nameStart, h]
  have ha := no_atom (M := M) (s := s) hn hd hs
  simp only [List.elem_eq_mem, decide_eq_false_iff_not, List.mem_cons, List.not_mem_nil, or_false, not_or] at hs
  exact .ref (.alt (.cons (.ref (.seq1 (no_xml h))) (.cons (.ref (.seq1 (.ref (.alt (.cons (no_embedding hs.1 hs.2.2.2.2.1)
    (.cons (.ref (.seq1 (.ref (.seq1 ha)))) (.nil _))))))) (.nil _))))

/-- No attribute at the symbol after blanks. -/
theorem no_attrs {w s : Str} (hw : Blanks w) (hs : NoBlank s) (h : w ≠ [] → Fl (.ref .attr_val) s ∧ Fl (.ref .attr_short) s) :
    Fl attrPeg (w ++ s) := by
  by_cases hne : w = []
  · subst hne
    exact .seq1 (.space hs)
  · exact .seq2 (.space hw hne hs) (.alt (.cons (h hne).1 (.cons (.plus (h hne).2) (.nil _))))

theorem attr_head {t : Str} {n : Option Str} {e : Expr} {b : Bool} (h : Spec.Attr M names t n e b) :
    ∃ c s, t = c :: s ∧ (startSym c = true ∨ nameStart c = true) := by
  cases h with
  | unnamed h => exact value_head h
  | bare hn h => exact written_first h
  | named hn =>
    obtain ⟨c, u, rfl, hc⟩ := hn.start
    exact ⟨_, _, rfl, .inr hc⟩

theorem first_cases {c : Char} (h : startSym c = true ∨ nameStart c = true) : isBlank c = false ∧ c ≠ '=' :=
  h.elim startSym_cases nameStart_cases

theorem attrs_blank {t : Str} {xs : List (Option Str × Expr)} {b : Bool} (h : Spec.Attrs M names t xs b) (hne : t ≠ []) :
    xs ≠ [] ∧ ∃ w u, t = w ++ u ∧ Blanks w ∧ w ≠ [] ∧ ∃ c v, u = c :: v ∧ isBlank c = false ∧ c ≠ '=' := by
  cases h with
  | nil => exact absurd rfl hne
  | last hw hn h =>
    obtain ⟨c, s, rfl, hc⟩ := attr_head h
    exact ⟨by simp, _, _, rfl, hw, hn, _, _, rfl, first_cases hc⟩
  | cons hw hn h =>
    obtain ⟨c, s, rfl, hc⟩ := attr_head h
    exact ⟨by simp, _, _, rfl, hw, hn, _, _, rfl, first_cases hc⟩
  | shorts hw hn h hs =>
    refine ⟨by simp [hs], _, _, rfl, hw, hn, ?_⟩
    cases h with
    | nil => exact absurd rfl hs
    | cons hc => exact ⟨_, _, rfl, by rcases hc with rfl | rfl <;> decide⟩
    | braces hc => exact ⟨_, _, rfl, by rcases hc with rfl | rfl <;> decide⟩

theorem AttrEnd.blank {w s : Str} {b : Bool} (hw : Blanks w) (hne : w ≠ []) (hs : NoBlank s) (hq : s.head? ≠ some '=') :
    AttrEnd U b (w ++ s) := by
  cases w with
  | nil => exact absurd rfl hne
  | cons a w =>
    have ha := hw a (by simp)
    refine ⟨?_, ?_, ⟨_, s, rfl, hw, hs, hq⟩, ?_⟩ <;> intro c hc <;>
      (simp only [List.cons_append, List.head?_cons, Option.some.injEq] at hc; subst hc) <;> rcases ha with rfl | rfl <;> first | rfl | exact .inl rfl | decide

theorem attrs_end {t rest : Str} {xs : List (Option Str × Expr)} {b b' : Bool} (h : Spec.Attrs M names t xs b) (hne : t ≠ []) :
    AttrEnd U b' (t ++ rest) := by
  obtain ⟨_, w, u, rfl, hw, hn, c, v, rfl, h1, h2⟩ := attrs_blank h hne
  have := AttrEnd.blank (U := U) (b := b') (s := c :: v ++ rest) hw hn (.cons h1) (by simpa using h2)
  simpa using this

theorem attrs_reads {t : Str} {xs : List (Option Str × Expr)} {b : Bool} (h : Spec.Attrs M names t xs b) : ∀ {k : Nat} {rest : Str},
    (xs ≠ [] → AttrEnd U b rest) → Fl attrPeg rest → Bs k attrPeg t rest (xs.map attrB) := by
  induction h with
  | nil => exact fun _ hf => .nil hf
  | @last w t n e b hw hn h =>
    intro k rest hr hf
    obtain ⟨h1, h2⟩ := attr_reads (M := M) (U := U) (P := P) (names := names) (full := full) (k := k + w.length) h (hr (by simp))
    exact BuildsStar.cons (x := w ++ t) (y := []) (bs := [attrB (n, e)]) (.ofSeq (.step (r := t ++ rest) (.space hw hn (h2 _)) (.step (.alt (.here h1)) (.nil _)))) (by simp [hn]) (.nil hf) (by simp)
  | @cons w t t' n e b b' xs hw hn h h' hne ih =>
    intro k rest hr hf
    obtain ⟨h1, h2⟩ := attr_reads (M := M) (U := U) (P := P) (names := names) (full := full) (k := k + w.length) h
      (attrs_end (rest := rest) h' hne)
    exact BuildsStar.cons (x := w ++ t) (y := t') (bs := [attrB (n, e)]) (.ofSeq (.step (r := t ++ (t' ++ rest)) (.space hw hn (h2 _)) (.step (.alt (.here h1)) (.nil _)))) (by simp [hn])
      (ih (fun _ => hr (by simp)) hf) (by simp)
  | @shorts w t t' ss b xs hw hn h hs hd h' ih =>
    intro k rest hr hf
    have hend : AttrEnd U b (t' ++ rest) := by
      by_cases hne : t' = []
      · subst hne; exact hr (by simp [hs])
      · exact attrs_end h' hne
    have h1 := shorts_reads (M := M) (U := U) (P := P) (names := names) (full := full) h (k := k + w.length) (rest := t' ++ rest)
      (fun _ => ⟨b, hend⟩) hend.no_short
    have hne : t ≠ [] := by
      rintro rfl
      cases h
      exact hs rfl
    obtain ⟨c, u, rfl, hc⟩ := (shorts_next h).resolve_left hne
    have hf2 : Fl (.ref .attr_val) ((c :: u) ++ (t' ++ rest)) := by
      rcases hc with rfl | rfl
      · refine .ref (.alt (.cons (.first 200 rfl) (.cons (.ref (.seq1 (.ref (.alt (.cons (.first 200 rfl) (.cons (.ref (.seq1 (.ref (.seq1 ?_)))) (.nil _))))))) (.nil _))))
        refine .ref (.alt (.cons (.ref (.alt (.cons (.ref (.rx ?_)) (.cons (.first 200 rfl) (.cons (.first 200 rfl) (.cons (.first 200 rfl) (.nil _))))))) (.cons (.first 200 rfl)
          (.cons (.first 200 rfl) (.cons (.first 200 rfl) (.cons (.first 200 rfl) (.cons (.first 200 rfl) (.cons (.first 200 rfl) (.cons (.first 200 rfl) (.nil _))))))))))
        cases u with
        | nil => exact absurd rfl (shorts_two h)
        | cons d u =>
          obtain ⟨h3, h4⟩ := hd d u rfl
          have h5 : reDigit U d = false := by simp [reDigit, h4]; omega
          have h6 : reDigit U '.' = false := rfl
          simp [reNumber, RE.match?, RE.rests, RE.many1, h5, RE.opt, h6]
      · exact .first 200 rfl
    have := BuildsStar.cons (M := M) (U := U) (P := P) (names := names) (full := full) (k := k) (p := attrPeg) (x := w ++ c :: u) (y := t') (rest := rest)
      (z := w ++ (c :: u ++ t')) (bs := ss.map fun x => attrB (some x.1, x.2))
      (.ofSeq (.step (r := (c :: u) ++ (t' ++ rest)) (.space hw hn (.cons (by rcases hc with rfl | rfl <;> rfl))) (.step (.alt (.there hf2 (.here (h1.plus hne)))) (.nil _)))) (by simp [hn])
      (ih (fun _ => hr (by simp [hs])) hf) (by simp)
    simpa [Function.comp_def] using this

/-! Tags -/

theorem collect_named (ns : List (Str × Expr)) (us : List Expr) (ms : List (Str × Expr)) :
    collectAttrs (P := P) (ns.map fun x => attrB (some x.1, x.2)) us ms = .ok (us, ms ++ ns) := by
  induction ns generalizing ms with
  | nil => simp [collectAttrs]
  | cons x ns ih => simp [collectAttrs, attrB]; exact (ih _).trans (by simp)

theorem collect_attrs (us : List Expr) (ns : List (Str × Expr)) (vs : List Expr) :
    collectAttrs (P := P) ((us.map (fun e => ((none : Option Str), e)) ++ ns.map (fun x : Str × Expr => (some x.1, x.2))).map attrB) vs [] = .ok (vs ++ us, ns) := by
  induction us generalizing vs with
  | nil =>
    have := collect_named (P := P) ns vs []
    simpa [Function.comp_def] using this
  | cons e us ih => simp [collectAttrs, attrB]; exact (by simpa [attrB] using (ih (vs ++ [e])))

theorem attrs_noQual (xs : List (Option Str × Expr)) : NoQual (P := P) (xs.map attrB) := by
  induction xs with
  | nil => exact .nil
  | cons x xs ih => exact .cons (by simp [attrB]) ih

/-- The end of a tag. -/
structure TagEnd (M : Marks) (U : Uni) (plain : Bool) (b : Bool) (rest : Str) : Prop where
  nameEnd : NameEnd rest
  attr : plain = false → AttrEnd U b rest
  short : Fails (rule M U) (.ref .attr_short) rest
  stop : Fails (rule M U) attrPeg rest

theorem tag_noBlank {t s : Str} {x : TagExp} {b : Bool} (h : Spec.Tag M names t x b) : NoBlank (t ++ s) := by
  cases h with
  | tag hn =>
    obtain ⟨c, u, rfl, hc, _⟩ := hn.start
    exact .cons (nameStart_cases hc).1

theorem attrs_plain {t : Str} {xs : List (Option Str × Expr)} {b : Bool} (h : Spec.Attrs M names t xs b) (hx : xs = []) : t = [] := by
  cases h with
  | nil => rfl
  | last | cons => cases hx
  | shorts _ _ _ hs => simp [hs] at hx

theorem tag_reads {t rest : Str} {x : TagExp} {b : Bool} (h : Spec.Tag M names t x b) (hr : TagEnd M U (TagExp.plain x) b rest) :
    Bd k (.ref .tag_expand) t rest [.tag x] := by
  cases h with
  | @tag n t t' ss xs us ns b hn hs ha hx =>
    have hpl : ss.map (fun x => (some x.1, x.2)) ++ xs ≠ [] → AttrEnd U b rest := by
      intro hne
      refine hr.attr ?_
      rw [hx] at hne
      simp only [TagExp.plain]
      cases us <;> cases ns <;> simp_all
    have h2 : ∀ k, Bs k attrPeg t' rest (xs.map attrB) := fun k => attrs_reads ha (fun h => hpl (by simp [h])) hr.stop
    have hend : Fl (.ref .attr_short) (t' ++ rest) ∧ (ss ≠ [] → ∃ b, AttrEnd U b (t' ++ rest)) := by
      by_cases hne : t' = []
      · subst hne
        exact ⟨hr.short, fun hs => ⟨b, hpl (by simp [hs])⟩⟩
      · have := attrs_end (U := U) (b' := b) (rest := rest) ha hne
        exact ⟨this.no_short, fun _ => ⟨b, this⟩⟩
    have h1 : ∀ k, Bm k (.ref .attr_short) t (t' ++ rest) (ss.map fun x => attrB (some x.1, x.2)) := fun k => shorts_reads hs hend.2 hend.1
    have hne : NameEnd (t ++ (t' ++ rest)) := by
      rcases shorts_next hs with rfl | ⟨c, u, rfl, hc⟩
      · by_cases hne : t' = []
        · subst hne; exact hr.nameEnd
        · exact (attrs_end (U := U) (b' := b) (rest := rest) ha hne).strict.nameEnd
      · intro d hd
        simp only [List.cons_append, List.head?_cons, Option.some.injEq] at hd
        subst hd
        rcases hc with rfl | rfl <;> rfl
    refine .plain (bs := .str .name_id n :: (ss.map (fun x => (some x.1, x.2)) ++ xs).map attrB) ?_ ?_
    · refine .ofSeq (.step (r := t ++ (t' ++ rest)) (.name hn.toName hne) (.step (x := t ++ t') (r := rest) (bs := (ss.map (fun x => (some x.1, x.2)) ++ xs).map attrB)
        (.reduced (n := .attrs_val) rfl ?_) (.nil _)))
      exact .ofSeq (.step (r := t' ++ rest) (.star (h1 _).star) (.step (r := rest) (.star (h2 _)) (.nil _))) (by simp) (by simp [Function.comp_def])
    · rw [attachQuals_id (.cons (by simp) (attrs_noQual _)), hx]
      simp only [setup]; rw [collect_attrs]; rfl

/-- A further tag. -/
def tagPeg : Peg NT := .seq [.ref .ws, .ref .mark_struct, .ref .ws, .ref .tag_expand]

theorem colon_end {w s : Str} {plain b : Bool} (hw : Blanks w) (hb : b = false → w ≠ []) : TagEnd M U plain b (w ++ ':' :: s) := by
  refine ⟨nameEnd_blanks hw rfl, fun _ => ?_, no_short ?_, no_attrs hw (.cons rfl) fun _ => ⟨.first 200 rfl, .first 200 rfl⟩⟩
  · by_cases hne : w = []
    · subst hne
      have hb : b = true := by simpa using hb
      refine ⟨?_, ?_, ⟨[], _, rfl, .nil, .cons rfl, by simp⟩, ?_⟩ <;> intro c hc <;>
        (simp only [List.nil_append, List.head?_cons, Option.some.injEq] at hc; subst hc)
      · rfl
      · exact .inr ⟨rfl, hb⟩
      · decide
    · exact .blank hw hne (.cons rfl) (by simp)
  · intro c hc
    cases w with
    | nil => simp only [List.nil_append, List.head?_cons, Option.some.injEq] at hc; subst hc; decide
    | cons d w =>
      simp only [List.cons_append, List.head?_cons, Option.some.injEq] at hc; subst hc
      rcases hw d (by simp) with rfl | rfl <;> decide

theorem TagEnd.weaken {p p' b : Bool} {rest : Str} (h : TagEnd M U p b rest) (hp : p = true → p' = true) : TagEnd M U p' b rest := by
  refine ⟨h.nameEnd, fun hf => h.attr ?_, h.short, h.stop⟩
  cases p with
  | false => rfl
  | true => rw [hp rfl] at hf; cases hf

theorem tags_reads {t : Str} {xs : List TagExp} {b : Bool} (h : Spec.Tags M names t xs b) : ∀ {rest : Str},
    TagEnd M U (xs.all TagExp.plain) b rest → Fl tagPeg rest →
    ∃ a a' x ys, t = a ++ a' ∧ xs = x :: ys ∧ (∀ s, NoBlank (a ++ s)) ∧ (∀ k, Bd k (.ref .tag_expand) a (a' ++ rest) [.tag x]) ∧
      (∀ k, Bs k tagPeg a' rest (ys.map .tag)) := by
  induction h with
  | @one t x b h =>
    intro rest hr hf
    exact ⟨t, [], x, [], by simp, rfl, fun _ => tag_noBlank h, fun k => tag_reads h (hr.weaken (by simp)), fun k => .nil hf⟩
  | @cons t w1 w2 t' x b b' xs h hw1 hw2 hb h' ih =>
    intro rest hr hf
    obtain ⟨a, a', y, ys, rfl, rfl, h1, h2, h3⟩ := ih (hr.weaken (by simp)) hf
    refine ⟨t, w1 ++ (':' :: (w2 ++ (a ++ a'))), x, y :: ys, by simp, rfl, fun _ => tag_noBlank h, fun k => ?_, fun k => ?_⟩
    · have := tag_reads (M := M) (U := U) (P := P) (names := names) (full := full) (k := k) h
        (colon_end (s := w2 ++ (a ++ (a' ++ rest))) hw1 hb)
      simpa using this
    · have := BuildsStar.cons (M := M) (U := U) (P := P) (names := names) (full := full) (k := k) (p := tagPeg)
        (x := w1 ++ (':' :: (w2 ++ a))) (y := a') (rest := rest) (z := w1 ++ (':' :: (w2 ++ (a ++ a')))) (bs := [.tag y])
        (.ofSeq (.step (r := ':' :: (w2 ++ (a ++ (a' ++ rest)))) (.ws hw1 (.cons rfl)) (.step (x := [':']) (r := w2 ++ (a ++ (a' ++ rest))) (.ignored (n := .mark_struct) rfl (.lit _ _))
          (.step (r := a ++ (a' ++ rest)) (.ws hw2 (h1 _)) (.step (r := a' ++ rest) (h2 _) (.nil _))))))
        (by simp) (h3 _) (by simp)
      simpa using this

theorem asTags_map (xs : List TagExp) : asTags (P := P) (xs.map .tag) = .ok xs := by
  induction xs with
  | nil => rfl
  | cons x xs ih => simp [asTags, ih]

theorem tags_noQual (xs : List TagExp) : NoQual (P := P) (xs.map .tag) := by
  induction xs with
  | nil => exact .nil
  | cons x xs ih => exact .cons (by simp) ih

theorem tags_builds {t rest : Str} {xs : List TagExp} {b : Bool} (h : Spec.Tags M names t xs b)
    (hr : TagEnd M U (xs.all TagExp.plain) b rest) (hf : Fl tagPeg rest) : Bd k (.ref .tags_expand) t rest [.tags xs] := by
  have hd : ∃ c s, t = c :: s ∧ c ≠ '.' := by
    have : ∀ {t : Str} {x : TagExp} {b : Bool}, Spec.Tag M names t x b → ∃ c s, t = c :: s ∧ c ≠ '.' := by
      intro t x b h
      cases h with
      | tag hn =>
        obtain ⟨c, u, rfl, hc, _⟩ := hn.start
        exact ⟨_, _, rfl, (nameStart_ne hc).2.2.2.2.2.2.2.2.1⟩
    cases h with
    | one h => exact this h
    | cons h => obtain ⟨c, s, rfl, hc⟩ := this h; exact ⟨_, _, rfl, hc⟩
  obtain ⟨a, a', x, ys, rfl, rfl, _, h2, h3⟩ := tags_reads (M := M) (U := U) (P := P) (names := names) (full := full) h hr hf
  refine .plain (bs := (x :: ys).map .tag) (.alt (.there ?_ (.here (.ofSeq (.step (r := a' ++ rest) (h2 _) (.step (r := rest) (.star (h3 _)) (.nil _))))))) ?_
  · obtain ⟨c, s, hcs, hc⟩ := hd
    rw [hcs]
    exact .ref (.lit1 hc)
  · rw [attachQuals_id (tags_noQual _)]
    simp only [setup, asTags_map]; rfl

end
end Verif
