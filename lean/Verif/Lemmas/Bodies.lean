import Verif.Lemmas.Attributes

/-! Bodies of blocks. -/

set_option linter.unusedSectionVars false

namespace Verif
open Py Spec

section
variable {M : Marks} {U : Uni} {P : Type} {names : Str → Option Char} {full : Str} {k : Nat}

local notation "Bd" => Builds M U P names full
local notation "Bq" => BuildsSeq M U P names full
local notation "Bs" => BuildsStar M U P names full
local notation "Bm" => Many M U P names full
local notation "Fl" => Fails (rule M U)
local notation "Fq" => FailsSeq (rule M U)

theorem Builds.at {p : Peg NT} {x rest : Str} {bs : List (Built P)} {k' : Nat} (h : Bd k' p x rest bs)
    (hk : k' = k := by first | rfl | omega | (simp; done) | (simp; omega)) : Bd k p x rest bs := hk ▸ h

/-- The text does not begin with any of the characters. -/
def Avoids (l s : Str) : Prop := ∀ c, s.head? = some c → l.elem c = false

theorem Avoids.lit {l s u : Str} {a : Char} (h : Avoids l s) (ha : l.elem a = true := by rfl) : Fl (.lit (a :: u)) s := by
  cases s with
  | nil => exact .lit rfl
  | cons c s =>
    refine .lit1 ?_
    rintro rfl
    have := h c rfl
    rw [ha] at this
    cases this

theorem Avoids.cons {l s : Str} {c : Char} (h : l.elem c = false := by rfl) : Avoids l (c :: s) := by
  intro d hd
  cases hd
  exact h

theorem no_body_text {s : Str} (h : Avoids (s!!"!|/@") s) : Fl (.ref .body_text) s :=
  .ref (.alt (.cons (.ref (.seq1 (.ref h.lit))) (.cons (.ref (.seq1 (.ref h.lit))) (.cons (.ref (.seq1 (.ref h.lit)))
    (.cons (.ref (.seq1 (.ref h.lit))) (.nil _))))))

theorem no_text {w s : Str} (hw : Blanks w) (hs : NoBlank s) (h : Avoids (s!!"!|/@") s) : Fl (.seq [.ref .ws, .ref .body_text]) (w ++ s) :=
  .seq2 (.ws hw hs) (no_body_text h)

theorem no_headline {w s : Str} (hw : Blanks w) (hs : NoBlank s) (h : Avoids (s!!"!|/") s) : Fl (.seq [.ref .ws, .ref .headline]) (w ++ s) :=
  .seq2 (.ws hw hs) (.ref (.alt (.cons (.ref (.seq1 (.ref h.lit))) (.cons (.ref (.seq1 (.ref h.lit))) (.cons (.ref (.seq1 (.ref h.lit)))
    (.nil _))))))

theorem no_colon {w s : Str} {ps : List (Peg NT)} (hw : Blanks w) (hs : NoBlank s) (h : Avoids (s!!":") s) :
    Fl (.seq (.ref .ws :: .ref .mark_struct :: ps)) (w ++ s) :=
  .seq2 (.ws hw hs) (.ref h.lit)

theorem no_inline {w s : Str} (hw : Blanks w) (hs : NoBlank s) (h : Avoids (s!!"#") s) (h' : ¬ s!!"--" <+: s) :
    Fl (.ref .inline_comment) (w ++ s) := by
  refine .ref (.seq2 (.ws hw hs) (.ref (.rx ?_)))
  refine (alts_skip (RE.match?_word_none ?_)).trans (RE.match?_word_none ?_)
  · rw [← Bool.not_eq_true]
    intro hp
    exact h' (List.isPrefixOf_iff_prefix.1 hp)
  · cases s with
    | nil => rfl
    | cons c s =>
      have := h c rfl
      simp only [List.elem_eq_mem, decide_eq_false_iff_not, List.mem_cons, List.not_mem_nil, or_false] at this
      simp [List.isPrefixOf, Ne.symm this]

/-- The node of a statement. -/
def stmtB : Stmt P → Built P
  | .line l => .line l
  | .indent c => .indent c
  | .dedent c => .dedent c
  | s => .stmt s

theorem asStmts_one (s : Stmt P) (bs : List (Built P)) : asStmts (stmtB s :: bs) = (do let ss ← asStmts bs; return s :: ss) := by
  cases s <;> rfl

theorem asStmts_stmtB : ∀ ss : List (Stmt P), asStmts (ss.map stmtB) = .ok ss
  | [] => rfl
  | s :: ss => by rw [List.map_cons, asStmts_one, asStmts_stmtB ss]; rfl

theorem stmtB_noQual (ss : List (Stmt P)) : NoQual (ss.map stmtB) := by
  induction ss with
  | nil => exact .nil
  | cons s ss ih => exact .cons (by cases s <;> simp [stmtB]) ih

theorem itemsFlat_append : ∀ is js : List Item, itemsFlat M (is ++ js) = itemsFlat M is ++ itemsFlat M js
  | [], _ => rfl
  | i :: is, js => by simp [itemsFlat, itemsFlat_append is js]

theorem ItemsOk.append : ∀ {is js : List Item}, ItemsOk (is ++ js) → ItemsOk is ∧ ItemsOk js
  | [], _, h => ⟨trivial, h⟩
  | i :: is, js, h => by
    obtain ⟨h1, h2, h3⟩ := h
    obtain ⟨h4, h5⟩ := ItemsOk.append h2
    refine ⟨⟨h1, h4, fun hg j hj => h3 hg j ?_⟩, h5⟩
    cases is with
    | nil => cases hj
    | cons a is => exact hj

variable [hM : MarksApart M U]

include hM in
variable (U) in
theorem Eol.avoids {l rest : Str} (h : Eol M rest) (hl : ∀ a ∈ l, a.toNat ≠ 10 ∧ a.toNat < 0x2768 := by decide) : Avoids l rest := by
  intro c hc
  simp only [List.elem_eq_mem, decide_eq_false_iff_not]
  intro hm
  exact (h c hc).ne U (hl c hm) rfl

/-- The statement of reading an indented group. -/
def ReadsNested (M : Marks) (U : Uni) (P : Type) (names : Str → Option Char) (full : Str) (k : Nat) (is : List Item) (ss : List (Stmt P)) : Prop :=
  ItemsOk is → ∀ rest, Shut M rest → At full k (itemsFlat M is ++ rest) →
    Eol M (itemsFlat M is ++ rest) ∧ Builds M U P names full k (.opt (.ref .tail_blocks)) (itemsFlat M is) rest (ss.map stmtB) ∧
    (is ≠ [] → Builds M U P names full k (.ref .tail_blocks) (itemsFlat M is) rest (ss.map stmtB))

/-! The body of a tag -/

def headNT : TextKind → NT
  | .verbat => .head_verbat
  | .normal => .head_normal
  | .markup => .head_markup

def markNT : TextKind → NT
  | .verbat => .mark_verbat
  | .normal => .mark_normal
  | .markup => .mark_markup

theorem headline_reads {h rest : Str} {ls : List Line} (hh : Headline M names h ls) (hr : Eol M rest) :
    Bd k (.ref .headline) h rest (ls.map .line) := by
  have key : ∀ (kd : TextKind) (g t : Str), Bd (k + 1) (.opt (.ref .gap)) g (t ++ rest) [] → FirstLine M names kd t ls →
      Bd k (.ref .headline) (kd.mark :: (g ++ t)) rest (ls.map .line) := by
    intro kd g t hg hf
    have hb : Bd k (.ref (headNT kd)) (kd.mark :: (g ++ t)) rest (ls.map .line) := by
      refine .reduced (by cases kd <;> rfl) ?_
      have : rule M U (headNT kd) = .seq [.ref (markNT kd), .opt (.ref .gap), .opt (.ref (lineNT kd))] := by cases kd <;> rfl
      have this' : rule M U (markNT kd) = .lit [kd.mark] := by cases kd <;> rfl
      rw [this]
      refine .ofSeq (.step (x := [kd.mark]) (r := g ++ (t ++ rest)) (.ignored (by cases kd <;> rfl) (by rw [this']; exact .lit _ _))
        (.step hg (.step (reads_first hf hr) (.nil _))))
    refine .reduced rfl (.alt ?_)
    cases kd with
    | verbat => exact .here hb
    | normal => exact .there (.first 200 rfl) (.here hb)
    | markup => exact .there (.first 200 rfl) (.there (.first 200 rfl) (.here hb))
  cases hh with
  | @close kd t ls hf hc =>
    refine key kd [] t (.opt_none (.ref (.rx ?_))) hf
    have : ∀ c, (t ++ rest).head? = some c → isBlank c = false := by
      refine head_append ?_ (fun c hc => (hr c hc).notBlank U)
      intro c h
      simp [isBlank, (hc c h).1, (hc c h).2]
    cases hs : t ++ rest with
    | nil => rfl
    | cons c s => simp [reGap, RE.match?, RE.rests, this c (by rw [hs]; rfl)]
  | @blank kd c t ls hc hf =>
    refine key kd [c] t (.opt_some (.ignored rfl (.rx ?_))) hf
    rcases hc with rfl | rfl <;> simp [reGap, RE.match?, RE.rests, isBlank]

include hM in
variable (U) in
/-- What the rest of the line does not begin with. -/
theorem remark_split {r rest : Str} (h : Remark M r) (hr : Eol M rest) :
    ∃ w s, r ++ rest = w ++ s ∧ Blanks w ∧ NoBlank s ∧ ∀ c, s.head? = some c → EolChar M c ∨ c = '#' ∨ c = '-' := by
  cases h with
  | none => exact ⟨[], rest, rfl, .nil, hr.noBlank U, fun c hc => .inl (hr c hc)⟩
  | @hash w s hw hs => exact ⟨w, '#' :: (s ++ rest), by simp, hw, .cons rfl, fun c hc => by cases hc; simp⟩
  | @dashes w s hw hs => exact ⟨w, '-' :: '-' :: (s ++ rest), by simp, hw, .cons rfl, fun c hc => by cases hc; simp⟩

include hM in
variable (U) in
theorem remark_avoids {l s : Str} (h : ∀ c, s.head? = some c → EolChar M c ∨ c = '#' ∨ c = '-')
    (hl : ∀ a ∈ l, a.toNat ≠ 10 ∧ a.toNat < 0x2768 := by decide) (h1 : l.elem '#' = false := by rfl) (h2 : l.elem '-' = false := by rfl) : Avoids l s := by
  intro c hc
  rcases h c hc with h | rfl | rfl
  · simp only [List.elem_eq_mem, decide_eq_false_iff_not]
    intro hm
    exact h.ne U (hl c hm) rfl
  · exact h1
  · exact h2

/-- The comment, maybe, after the colon. -/
theorem builds_after {r rest : Str} (h : Remark M r) (hr : Eol M rest) :
    Bd k (.opt (.alt [.seq [.ref .ws, .ref .headline], .ref .inline_comment])) r rest [] := by
  obtain ⟨w, s, he, hw, hs, hc⟩ := remark_split U h hr
  have hh : Fl (.seq [.ref .ws, .ref .headline]) (r ++ rest) := by
    rw [he]; exact no_headline hw hs (remark_avoids U hc)
  cases h with
  | none => exact .opt_none (.alt (.cons hh (.cons hr.no_comment (.nil _))))
  | @hash w s hw hs => exact .opt_some (.alt (.there hh (.here ((builds_comment hw (mk := ['#']) (.inl rfl) hs hr).conv))))
  | @dashes w s hw hs => exact .opt_some (.alt (.there hh (.here ((builds_comment hw (mk := ['-', '-']) (.inr rfl) hs hr).conv))))

omit hM in
theorem tagRemark {r : Str} (h : TagRemark M r) : Remark M r := by
  cases h with
  | hash hw _ hs _ => exact .hash hw hs
  | dashes hw _ hs => exact .dashes hw hs

theorem builds_struct {a b x rest : Str} {ls : List Line} {ss : List (Stmt P)}
    (h0 : Fl (.seq [.ref .ws, .ref .body_text]) (a ++ (b ++ x) ++ rest))
    (h1 : Bd k (.opt (.seq [.ref .ws, .ref .mark_struct])) a (b ++ (x ++ rest)) [])
    (h2 : Bd (k + a.length) (.opt (.alt [.seq [.ref .ws, .ref .headline], .ref .inline_comment])) b (x ++ rest) (ls.map .line))
    (h3 : Bd (k + a.length + b.length) (.opt (.ref .tail_blocks)) x rest (ss.map stmtB)) :
    Bd k (.ref .generic_struct) (a ++ (b ++ x)) rest [.stmt (.body (ls.map .line ++ ss))] := by
  refine .reduced rfl (.alt (.there h0 (.here (.plain (n := .body_struct) (bs := (ls.map Stmt.line ++ ss).map stmtB) ?_ ?_))))
  · refine .ofSeq (.step h1 (.step h2 (.step h3 (.nil _)))) (by simp) ?_
    simp only [List.map_append, List.map_map, List.append_nil, List.nil_append]; rfl
  · rw [attachQuals_id (stmtB_noQual _)]
    simp only [setup, asStmts_stmtB]; rfl

/-- The statement of reading a body. -/
def ReadsBody (M : Marks) (U : Uni) (P : Type) (names : Str → Option Char) (full : Str) (n : NT) (k c : Nat) (t : Str)
    (is : List Item) (s : Stmt P) : Prop :=
  '\n' ∉ t → ItemsOk is → ∀ rest, Shut M rest → Col full k (t ++ (itemsFlat M is ++ rest)) c →
    Builds M U P names full k (.ref n) (t ++ itemsFlat M is) rest [.stmt s]

theorem blanks_nl {w : Str} (h : Blanks w) : '\n' ∉ w := by
  intro hm
  rcases h _ hm with h | h <;> cases h

theorem struct_text {n : NT} (hn : ∃ b, rule M U n = .alt [.seq [.ref .ws, .ref .body_text], b]) (hred : isReduced n = true)
    {c : Nat} {w t : Str} {is : List Item} {s : Stmt P} (hw : Blanks w) (h : TextBlock M names (c + w.length) t is s) :
    ReadsBody M U P names full n k c (w ++ t) is s := by
  intro _ _ rest hr hc
  have hc' : Col full (k + w.length) (t ++ (itemsFlat M is ++ rest)) (c + w.length) := by
    refine Col.move ?_ (blanks_nl hw)
    simpa using hc
  have hb := textBlock_reads h hr hc'.column (U := U)
  have hne : NoBlank (t ++ (itemsFlat M is ++ rest)) := by
    cases h with
    | @text kd _ _ _ _ _ _ => cases kd <;> exact .cons rfl
    | embed => exact .cons rfl
  obtain ⟨b, hn⟩ := hn
  refine .reduced hred ?_
  rw [hn]
  refine .alt (.here (.ofSeq (.step (r := t ++ (itemsFlat M is ++ rest)) (.ws hw hne) (.step hb (.nil _)))))

theorem struct_plain {c : Nat} {is : List Item} {ss : List (Stmt P)} (h : ReadsNested M U P names full k is ss) :
    ReadsBody M U P names full .generic_struct k c [] is (.body ss) := by
  intro _ hok rest hr hc
  obtain ⟨he, h1, _⟩ := h hok rest hr hc.at
  have := builds_struct (a := []) (b := []) (ls := []) (ss := ss) (x := itemsFlat M is) (k := k) (rest := rest) (M := M) (U := U) (names := names) (full := full)
    (no_text (w := []) .nil (he.noBlank U) (he.avoids U)) (.opt_none (no_colon (w := []) .nil (he.noBlank U) (he.avoids U))) (builds_after .none he) h1
  simpa using this

theorem struct_remark {c : Nat} {r : Str} {is : List Item} {ss : List (Stmt P)} (hg : TagRemark M r)
    (h : ReadsNested M U P names full (k + r.length) is ss) : ReadsBody M U P names full .generic_struct k c r is (.body ss) := by
  intro _ hok rest hr hc
  obtain ⟨he, h1, _⟩ := h hok rest hr hc.at.move
  obtain ⟨w, s, hs, hw, hb, hc⟩ := remark_split U (tagRemark hg) he
  have := builds_struct (a := []) (b := r) (ls := []) (ss := ss) (x := itemsFlat M is) (k := k) (rest := rest) (M := M) (U := U) (names := names) (full := full)
    (by have := no_text hw hb (remark_avoids (l := s!!"!|/@") U hc) (U := U) (M := M); rw [← hs] at this; simpa using this)
    (.opt_none (by rw [hs]; exact no_colon hw hb (remark_avoids U hc))) (builds_after (tagRemark hg) he) h1
  simpa using this

omit hM in
theorem builds_colon {w r : Str} (hw : Blanks w) : Bd k (.opt (.seq [.ref .ws, .ref .mark_struct])) (w ++ [':']) r [] :=
  .opt_some (.ofSeq (.step (r := ':' :: r) (.ws hw (.cons rfl)) (.step (.ignored (n := .mark_struct) rfl (.lit _ _)) (.nil _))))

theorem struct_colon {c : Nat} {w r : Str} {is : List Item} {ss : List (Stmt P)} (hw : Blanks w) (hm : Remark M r)
    (h : ReadsNested M U P names full (k + w.length + 1 + r.length) is ss) :
    ReadsBody M U P names full .generic_struct k c (w ++ (':' :: r)) is (.body ss) := by
  intro _ hok rest hr hc
  have hat : At full (k + w.length + 1 + r.length) (itemsFlat M is ++ rest) := by
    have : At full k ((w ++ ':' :: r) ++ (itemsFlat M is ++ rest)) := hc.at
    have := this.move
    simpa [Nat.add_assoc, Nat.add_comm, Nat.add_left_comm] using this
  obtain ⟨he, h1, _⟩ := h hok rest hr hat
  have := builds_struct (a := w ++ [':']) (b := r) (ls := []) (ss := ss) (x := itemsFlat M is) (k := k) (rest := rest) (M := M) (U := U) (names := names) (full := full)
    (by have := no_text hw (s := ':' :: (r ++ (itemsFlat M is ++ rest))) (.cons rfl) .cons (U := U) (M := M); simpa using this)
    (builds_colon hw) (builds_after hm he) h1.at
  simpa using this

theorem struct_headline {c : Nat} {w w' h : Str} {ls : List Line} {is : List Item} {ss : List (Stmt P)} (hw : Blanks w)
    (hw' : Blanks w') (hh : Headline M names h ls)
    (hn : ReadsNested M U P names full (k + w.length + 1 + w'.length + h.length) is ss) :
    ReadsBody M U P names full .generic_struct k c (w ++ (':' :: (w' ++ h))) is (.body (ls.map .line ++ ss)) := by
  intro _ hok rest hr hc
  have hat : At full (k + w.length + 1 + w'.length + h.length) (itemsFlat M is ++ rest) := by
    have : At full k ((w ++ (':' :: (w' ++ h))) ++ (itemsFlat M is ++ rest)) := hc.at
    have := this.move
    simpa [Nat.add_assoc, Nat.add_comm, Nat.add_left_comm] using this
  obtain ⟨he, h1, _⟩ := hn hok rest hr hat
  have hnb : NoBlank (h ++ (itemsFlat M is ++ rest)) := by
    cases hh with
    | @close kd => cases kd <;> exact .cons rfl
    | @blank kd => cases kd <;> exact .cons rfl
  have := builds_struct (a := w ++ [':']) (b := w' ++ h) (ls := ls) (ss := ss) (x := itemsFlat M is) (k := k) (rest := rest) (M := M) (U := U) (names := names) (full := full)
    (by have := no_text hw (s := ':' :: (w' ++ (h ++ (itemsFlat M is ++ rest)))) (.cons rfl) .cons (U := U) (M := M); simpa using this)
    (builds_colon hw)
    (.opt_some (.alt (.here (.ofSeq (.step (r := h ++ (itemsFlat M is ++ rest)) (.ws hw' hnb) (.step (headline_reads hh he) (.nil _))))))) h1.at
  simpa using this

/-! How bodies begin -/

/-- The beginning of a body, whose first line is `t`. -/
inductive BodyStart (M : Marks) (t : Str) : Str → Prop
  | text {w u v : Str} {c : Char} : Blanks w → (s!!"!|/@").elem c = true → t = w ++ c :: v → BodyStart M t (w ++ c :: u)
  | eol {s : Str} : Eol M s → BodyStart M t s
  | hash {w u : Str} : Blanks w → w ≠ [] → (∀ c, u.head? = some c → c = ' ' ∨ c = '\t' ∨ EolChar M c) → BodyStart M t (w ++ '#' :: u)
  | dashes {w u : Str} : Blanks w → w ≠ [] → BodyStart M t (w ++ '-' :: '-' :: u)
  | colon {w w' v : Str} : Blanks w → (w = [] → t.head? = some ':') → Blanks w' → NoBlank v →
      (∀ c, v.head? = some c → EolChar M c ∨ (s!!"#-!|/").elem c = true) → BodyStart M t (w ++ ':' :: (w' ++ v))

omit hM in
theorem nested_eol {is : List Item} {ss : List (Stmt P)} {rest : Str} (h : Nested M names k is ss) (hr : Eol M rest) :
    Eol M (itemsFlat M is ++ rest) := by
  cases h with
  | none => exact hr
  | @group _ inc js ss hb hn hj h =>
    refine itemsFlat_eol ?_ hr
    intro inc' js' h
    simp only [List.mem_singleton, Item.group.injEq] at h
    rw [h.1]; exact hn

omit hM in
theorem mark_elem (kd : TextKind) : (s!!"!|/@").elem kd.mark = true := by cases kd <;> rfl

theorem text_start {c : Nat} {t : Str} {is : List Item} {s : Stmt P} (h : TextBlock M names c t is s) :
    ∃ d u, t = d :: u ∧ (s!!"!|/@").elem d = true := by
  cases h with
  | @text kd _ _ _ _ _ _ => exact ⟨_, _, rfl, mark_elem kd⟩
  | embed => exact ⟨_, _, rfl, rfl⟩

include hM in
variable (U) in
theorem structBody_start {c : Nat} {t : Str} {is : List Item} {b : Stmt P} {rest : Str} (h : StructBody M names k c t is b)
    (hr : Eol M rest) : BodyStart M t (t ++ (itemsFlat M is ++ rest)) := by
  cases h with
  | @text _ _ w t _ _ hw h =>
    obtain ⟨d, u, rfl, hd⟩ := text_start h
    have := BodyStart.text (M := M) (t := w ++ d :: u) (w := w) (u := u ++ (itemsFlat M is ++ rest)) (c := d) hw hd rfl
    simpa using this
  | plain h => exact .eol (nested_eol h hr)
  | remark hg h =>
    have he := nested_eol h hr
    cases hg with
    | @hash w s hw hn hs hh =>
      have := BodyStart.hash (M := M) (t := w ++ '#' :: s) (w := w) (u := s ++ (itemsFlat M is ++ rest)) hw hn ?_
      · simpa using this
      · refine head_append (fun c hc => ?_) (fun c hc => .inr (.inr (he c hc)))
        rcases hh c hc with h | h
        · exact .inl h
        · exact .inr (.inl h)
    | @dashes w s hw hn hs =>
      have := BodyStart.dashes (M := M) (t := w ++ '-' :: '-' :: s) (w := w) (u := s ++ (itemsFlat M is ++ rest)) hw hn
      simpa using this
  | @colon _ _ w r _ _ hw hm h =>
    have he := nested_eol h hr
    obtain ⟨w', v, h1, h2, h3, h4⟩ := remark_split U hm he
    have := BodyStart.colon (M := M) (t := w ++ ':' :: r) (w := w) (w' := w') (v := v) hw (by rintro rfl; rfl) h2 h3 ?_
    · rw [← h1] at this; simpa using this
    · intro c hc
      rcases h4 c hc with h | rfl | rfl
      · exact .inl h
      · exact .inr rfl
      · exact .inr rfl
  | @headline _ _ w w' h ls _ ss hw hw' hh hn =>
    have hmk : ∃ (kd : TextKind) (u : Str), h = kd.mark :: u := by
      cases hh with
      | close => exact ⟨_, _, rfl⟩
      | blank => exact ⟨_, _, rfl⟩
    obtain ⟨kd, u, rfl⟩ := hmk
    have := BodyStart.colon (M := M) (t := w ++ ':' :: (w' ++ kd.mark :: u)) (w := w) (w' := w') (v := kd.mark :: (u ++ (itemsFlat M is ++ rest)))
      hw (by rintro rfl; rfl) hw' (by cases kd <;> exact .cons rfl) ?_
    · simpa using this
    · intro c hc
      cases hc
      cases kd <;> exact .inr rfl

theorem Avoids.name {s : Str} (h : ∀ c, s.head? = some c → nameStart c = false) : Fl (.ref .name_id) s := by
  cases s with
  | nil => exact .first 200 rfl
  | cons c s => exact .name_start (h c rfl)

theorem BodyStart.no_tags {t s : Str} (h : BodyStart M t s) : Fl tagPeg s := by
  cases h with
  | @text w u v c hw hc _ =>
    simp only [List.elem_eq_mem, List.mem_cons, List.not_mem_nil, or_false, decide_eq_true_eq] at hc
    refine no_colon hw (.cons ?_) (.cons ?_) <;> rcases hc with rfl | rfl | rfl | rfl <;> rfl
  | eol h => exact no_colon (w := []) .nil (h.noBlank U) (h.avoids U)
  | hash hw => exact no_colon hw (.cons rfl) .cons
  | dashes hw => exact no_colon hw (.cons rfl) .cons
  | @colon w w' v hw _ hw' hv hc =>
    refine .seq (.after (rest := ':' :: (w' ++ v)) (.ws hw (.cons rfl)) (.after (x := [':']) (rest := w' ++ v) ?_
      (.after (.ws hw' hv) (.head (.ref (.seq1 (Avoids.name ?_)))))))
    · exact (Builds.ignored (P := Unit) (names := fun _ => none) (full := []) (k := 0) (n := .mark_struct) rfl (.lit [':'] (w' ++ v))).eats
    · intro c h
      rcases hc c h with h | h
      · exact (h.notName U).1
      · simp only [List.elem_eq_mem, List.mem_cons, List.not_mem_nil, or_false, decide_eq_true_eq] at h
        rcases h with rfl | rfl | rfl | rfl | rfl <;> rfl

theorem EolChar.notXmlStart {c : Char} (h : EolChar M c) : xmlStart U c = false := by
  have := h.notXml (U := U)
  simp only [xmlMid, xmlEnd, Bool.or_eq_false_iff] at this
  exact this.1.1.1.1.1

theorem no_attr_eol {s : Str} (h : Eol M s) : Fl (.ref .attr_val) s := by
  cases s with
  | nil => exact .first 200 rfl
  | cons c s =>
    have hc := h c rfl
    refine no_attr hc.notXmlStart hc.notDigit ?_
    exact Eol.avoids U h (by decide) c rfl

theorem no_short_hash {u : Str} (h : ∀ c, u.head? = some c → c = ' ' ∨ c = '\t' ∨ EolChar M c) : Fl (.ref .attr_short) ('#' :: u) := by
  have h1 : ∀ c, u.head? = some c → azI c = false ∧ ascDigit c = false ∧ c ≠ '_' ∧ c ≠ '-' ∧ c ≠ '$' ∧ c ≠ '{' := by
    intro c hc
    rcases h c hc with rfl | rfl | h
    · decide
    · decide
    · obtain ⟨h1, h2, h3⟩ := h.notAz U
      exact ⟨h1, h2, h3, h.ne U, h.ne U, h.ne U⟩
  refine .ref (.seq2 (x := ['#']) (rest := u) (short_mark (P := Unit) (names := fun _ => none) (full := []) (k := 0) (.inr rfl)).eats (.alt (.cons (.ref (.rx ?_)) (.cons ?_ (.nil _)))))
  · cases u with
    | nil => rfl
    | cons c u =>
      obtain ⟨h1, h2, h3, h4, _⟩ := h1 c rfl
      exact RE.match?_nope (by simp [reShort, RE.nope, RE.many1, inClass, h1, h2, h3, h4])
  · cases u with
    | nil => exact .first 200 rfl
    | cons c u => exact no_embedding (h1 c rfl).2.2.2.2.1 (h1 c rfl).2.2.2.2.2

theorem BodyStart.tagEnd {t s : Str} {p f : Bool} (h : BodyStart M t s) (h1 : t.head? = some '!' → p = true)
    (h2 : f = false → t.head? ≠ some ':') : TagEnd M U p f s := by
  have key : ∀ (w : Str) (c : Char) (u : Str), Blanks w → isBlank c = false → nameChar c = false → c ≠ '=' →
      (w = [] → p = false → endChar U c = true ∧ (xmlMid U c = false ∨ (c = ':' ∧ f = true)) ∧ c ≠ '#' ∧ c ≠ '-') →
      (w = [] → c ≠ '#' ∧ c ≠ '.') → (w ≠ [] → Fl (.ref .attr_val) (c :: u) ∧ Fl (.ref .attr_short) (c :: u)) → TagEnd M U p f (w ++ c :: u) := by
    intro w c u hw hb hn hq he hs ha
    refine ⟨nameEnd_blanks hw hn, fun hp => ?_, no_short ?_, no_attrs hw (.cons hb) ha⟩
    · by_cases hne : w = []
      · subst hne
        obtain ⟨h1, h2, h3, h4⟩ := he rfl hp
        refine ⟨?_, ?_, ⟨[], _, rfl, .nil, .cons hb, by simpa using hq⟩, ?_⟩ <;> intro d hd <;> cases hd
        · exact h1
        · exact h2
        · exact ⟨h3, h4⟩
      · exact .blank hw hne (.cons hb) (by simpa using hq)
    · intro d hd
      cases w with
      | nil => cases hd; exact ⟨(hs rfl).2, (hs rfl).1⟩
      | cons a w => cases hd; rcases hw d (by simp) with rfl | rfl <;> decide
  cases h with
  | @text w u v c hw hc ht =>
    have ht : w = [] → t.head? = some c := by rintro rfl; rw [ht]; rfl
    simp only [List.elem_eq_mem, List.mem_cons, List.not_mem_nil, or_false, decide_eq_true_eq] at hc
    refine key w c u hw ?_ ?_ ?_ ?_ ?_ ?_
    · rcases hc with rfl | rfl | rfl | rfl <;> rfl
    · rcases hc with rfl | rfl | rfl | rfl <;> rfl
    · rcases hc with rfl | rfl | rfl | rfl <;> decide
    · rintro hw0 hp
      rcases hc with rfl | rfl | rfl | rfl
      · rw [h1 (ht hw0)] at hp; cases hp
      · exact ⟨rfl, .inl rfl, by decide, by decide⟩
      · exact ⟨rfl, .inl rfl, by decide, by decide⟩
      · exact ⟨rfl, .inl rfl, by decide, by decide⟩
    · intro _; rcases hc with rfl | rfl | rfl | rfl <;> decide
    · intro _; rcases hc with rfl | rfl | rfl | rfl <;> exact ⟨.first 200 rfl, .first 200 rfl⟩
  | eol h =>
    refine ⟨h.nameEnd U, fun _ => ⟨?_, ?_, ⟨[], s, rfl, .nil, h.noBlank U, ?_⟩, ?_⟩, no_short ?_, no_attrs (w := []) .nil (h.noBlank U) (by simp)⟩
    · intro c hc; exact (h c hc).ends
    · intro c hc; exact .inl (h c hc).notXml
    · intro hc; exact (h _ hc).ne U (a := '=') (by decide) rfl
    · intro c hc; exact ⟨(h c hc).ne U, (h c hc).ne U⟩
    · intro c hc; exact ⟨(h c hc).ne U, (h c hc).ne U⟩
  | @hash w u hw hne hu =>
    exact key w '#' u hw rfl rfl (by decide) (fun h => absurd h hne) (fun h => absurd h hne)
      (fun _ => ⟨.first 200 rfl, no_short_hash hu⟩)
  | @dashes w u hw hne =>
    exact key w '-' _ hw rfl rfl (by decide) (fun h => absurd h hne) (fun h => absurd h hne)
      (fun _ => ⟨.first 200 rfl, .first 200 rfl⟩)
  | @colon w w' v hw hc hw' hv hv' =>
    refine key w ':' _ hw rfl rfl (by decide) (fun h _ => ⟨rfl, .inr ⟨rfl, ?_⟩, by decide, by decide⟩) (fun _ => by decide)
      (fun _ => ⟨.first 200 rfl, .first 200 rfl⟩)
    cases f with
    | true => rfl
    | false => exact absurd (hc h) (h2 rfl)

/-! Blocks with tags -/

theorem struct_tags {c : Nat} {t t' : Str} {ts : List TagExp} {f : Bool} {is : List Item} {b : Stmt P} (h : Tags M names t ts f)
    (h1 : t'.head? = some '!' → ∀ x ∈ ts, TagExp.plain x = true) (h2 : f = false → t'.head? ≠ some ':')
    (hb : StructBody M names (k + t.length) (c + t.length) t' is b)
    (hr : ReadsBody M U P names full .generic_struct (k + t.length) (c + t.length) t' is b) :
    ReadsBody M U P names full .block_struct k c (t ++ t') is (.struct ts b) := by
  intro hnl hok rest hs hc
  have hst := structBody_start U hb hs.eol
  have hc' : Col full (k + t.length) (t' ++ (itemsFlat M is ++ rest)) (c + t.length) := by
    refine Col.move ?_ (fun h => hnl (by simp [h]))
    simpa using hc
  have hbody := hr (fun h => hnl (by simp [h])) hok rest hs hc'
  refine .several (bs := [.tags ts, .stmt b]) rfl (.alt (.here ?_)) (by simp) rfl
  exact .ofSeq (.step (r := t' ++ (itemsFlat M is ++ rest)) (tags_builds h (hst.tagEnd (by simpa using h1) h2) hst.no_tags) (.step hbody (.nil _)))

theorem struct_null {c : Nat} {t : Str} {is : List Item} {b : Stmt P}
    (hr : ReadsBody M U P names full .generic_struct (k + 1) (c + 1) t is b) :
    ReadsBody M U P names full .block_struct k c ('.' :: t) is (.struct [.null] b) := by
  intro hnl hok rest hs hc
  have hc' : Col full (k + 1) (t ++ (itemsFlat M is ++ rest)) (c + 1) := Col.move (x := ['.']) hc (by decide)
  have hbody := hr (fun h => hnl (by simp [h])) hok rest hs hc'
  refine .several (bs := [.tags [.null], .stmt b]) rfl (.alt (.here ?_)) (by simp) rfl
  refine .ofSeq (.step (x := ['.']) (r := t ++ (itemsFlat M is ++ rest)) (.plain (n := .tags_expand) (bs := [.tag .null]) (.alt (.here ?_)) rfl) (.step hbody (.nil _)))
  exact .plain (n := .null) (bs := []) (.lit _ _) rfl

theorem struct_block_text {c : Nat} {t : Str} {is : List Item} {s : Stmt P} (h : TextBlock M names c t is s) :
    ReadsBody M U P names full .block_struct k c t is s := by
  intro hnl hok rest hs hc
  have hb := textBlock_reads (U := U) h hs hc.column
  obtain ⟨d, u, hdu, hd⟩ := text_start h
  refine .single rfl (.alt (.there ?_ (.here hb)))
  rw [hdu]
  simp only [List.elem_eq_mem, List.mem_cons, List.not_mem_nil, or_false, decide_eq_true_eq] at hd
  rcases hd with rfl | rfl | rfl | rfl <;> exact .first 200 rfl

end
end Verif
