import Verif.Lemmas.Recode

/-! Other marks: the rules of the grammar. -/

namespace Verif
open Py Spec

section
variable {M M' : Marks} {U : Uni}

/-- No class of the expression contains a mark. -/
def RE.Shuns (M : Marks) : RE → Prop
  | .eps => True
  | .chr p => ∀ c, isMark M c = true → p c = false
  | .many p => ∀ c, isMark M c = true → p c = false
  | .seq a b => RE.Shuns M a ∧ RE.Shuns M b
  | .alt a b => RE.Shuns M a ∧ RE.Shuns M b
  | .bound w => ∀ c, isMark M c = true → w c = false

theorem RE.Shuns.rel {r : RE} (h : r.Shuns M) (h' : r.Shuns M') : RRel (M := M) (M' := M') r r := by
  have key : ∀ {p : Char → Bool}, (∀ c, isMark M c = true → p c = false) → (∀ c, isMark M' c = true → p c = false) →
      Fair (M := M) (M' := M') p p := fun a b => .const (b := false) (fun c hc => hc.elim (a c) (b c))
  induction r with
  | eps => trivial
  | chr p => exact key h h'
  | many p => exact key h h'
  | seq a b iha ihb => exact ⟨iha h.1 h'.1, ihb h.2 h'.2⟩
  | alt a b iha ihb => exact ⟨iha h.1 h'.1, ihb h.2 h'.2⟩
  | bound p => exact key h h'

theorem RE.Shuns.text {r : RE} (h : r.Shuns M) {w : Str} (hw : r.Lang w) : ∀ c ∈ w, isMark M c = false := by
  have key : ∀ {p : Char → Bool} {c : Char}, (∀ c, isMark M c = true → p c = false) → p c = true → isMark M c = false := by
    intro p c hp hc
    cases hm : isMark M c with
    | false => rfl
    | true => rw [hp c hm] at hc; cases hc
  induction r generalizing w with
  | eps => cases (hw : w = []); simp
  | chr p =>
    obtain ⟨c, rfl, hc⟩ := hw
    intro d hd
    cases List.mem_singleton.1 hd
    exact key h hc
  | many p => exact fun c hc => key h (hw c hc)
  | seq a b iha ihb =>
    obtain ⟨u, v, rfl, h1, h2⟩ := hw
    intro c hc
    rcases List.mem_append.1 hc with hc | hc
    · exact iha h.1 h1 c hc
    · exact ihb h.2 h2 c hc
  | alt a b iha ihb => exact hw.elim (iha h.1) (ihb h.2)
  | bound p => cases (hw : w = []); simp

theorem RE.NoEol.shuns : ∀ {r : RE}, RE.NoEol M r → r.Shuns M
  | .eps, _ => trivial
  | .chr _, h => fun c hc => h c (.inr hc)
  | .many _, h => fun c hc => h c (.inr hc)
  | .seq _ _, h => ⟨h.1.shuns, h.2.shuns⟩
  | .alt _ _, h => ⟨h.1.shuns, h.2.shuns⟩
  | .bound _, h => fun c hc => h c (.inr hc)

theorem RE.Shuns.alts : ∀ {rs : List RE}, (∀ r ∈ rs, r.Shuns M) → (RE.alts rs).Shuns M
  | [], _ => fun _ _ => rfl
  | [r], h => h r List.mem_cons_self
  | r :: r' :: rs, h =>
    ⟨h r List.mem_cons_self, RE.Shuns.alts (rs := r' :: rs) (fun x hx => h x (List.mem_cons_of_mem _ hx))⟩

variable [hM : MarksApart M U]

include hM in
variable (U) in
theorem word_shuns {w : Str} (h : w.all lowChar = true) : (RE.word w).Shuns M := (lowChar.word U h).shuns

include hM in
variable (U) in
theorem words_shuns {ws : List Str} (h : ws.all (fun w => w.all lowChar) = true) : (RE.alts (ws.map RE.word)).Shuns M := by
  refine RE.Shuns.alts (fun r hr => ?_)
  obtain ⟨w, hw, rfl⟩ := List.mem_map.1 hr
  exact word_shuns U (List.all_eq_true.1 h w hw)

include hM in
variable (U) in
theorem reInplace_shuns : reInplace.Shuns M := by
  refine RE.Shuns.alts ?_
  simp only [List.forall_mem_cons, List.not_mem_nil, false_implies, implies_true, and_true]
  refine ⟨word_shuns U rfl, word_shuns U rfl, word_shuns U rfl, word_shuns U rfl, ?_⟩
  intro c hm
  refine lowChar.class (M := M) (p := fun c => (s!!"-+*/&|^").elem c) U (fun c hc => ?_) c (.inr hm)
  simp only [List.elem_eq_mem, List.mem_cons, List.not_mem_nil, or_false, decide_eq_true_eq] at hc
  rcases hc with rfl | rfl | rfl | rfl | rfl | rfl | rfl <;> rfl

include hM in
variable (U) in
theorem reComment_shuns : reComment.Shuns M := words_shuns U (ws := [s!!"--", s!!"#"]) rfl

include hM in
variable (U) in
theorem reEscape_shuns : reEscape.Shuns M := words_shuns U (ws := [s!!"$$", s!!"{{", s!!"}}"]) rfl

include hM in
variable (U) in
theorem blank_shuns : (RE.chr isBlank).Shuns M ∧ (RE.many isBlank).Shuns M :=
  ⟨fun _ hc => EolChar.notBlank (M := M) U (.inr hc), fun _ hc => EolChar.notBlank (M := M) U (.inr hc)⟩

include hM in
variable (U) in
theorem reShort_shuns : reShort.Shuns M := by
  have key : ∀ c, isMark M c = true → (azI c || ascDigit c || c == '_' || c == '-') = false := by
    intro c hc
    obtain ⟨h1, h2, h3⟩ := EolChar.notAz (M := M) U (.inr hc)
    simp [h1, h2, h3, EolChar.ne (M := M) U (.inr hc) (a := '-')]
  exact ⟨key, key⟩

include hM in
variable (U) in
theorem reQualifier_shuns : reQualifier.Shuns M := by
  intro c hc
  simp [EolChar.ne (M := M) U (.inr hc) (a := '?'), EolChar.ne (M := M) U (.inr hc) (a := '!')]

include hM in
variable (U) in
theorem reName_shuns : reName.Shuns M :=
  ⟨fun _ hc => (EolChar.notName (M := M) U (.inr hc)).1, fun _ hc => (EolChar.notName (M := M) U (.inr hc)).2⟩

include hM in
variable (U) in
theorem reReserved_shuns : (reReserved U).Shuns M :=
  ⟨words_shuns U (ws := reservedNames) rfl, fun _ hc => EolChar.notWord (M := M) (.inr hc)⟩

include hM in
variable (U) in
theorem reComp_shuns (hsp : ∀ c, isMark M c = true → isSpace c = false) : reComp.Shuns M := by
  refine RE.Shuns.alts ?_
  simp only [List.forall_mem_cons, List.not_mem_nil, false_implies, implies_true, and_true]
  exact ⟨word_shuns U rfl, word_shuns U rfl, word_shuns U rfl, word_shuns U rfl, word_shuns U rfl, word_shuns U rfl,
    word_shuns U rfl, ⟨word_shuns U rfl, ⟨hsp, hsp⟩, word_shuns U rfl⟩, ⟨word_shuns U rfl, ⟨hsp, hsp⟩, word_shuns U rfl⟩,
    word_shuns U rfl, word_shuns U rfl⟩

include hM in
variable (U) in
theorem reXml_shuns : (reXml U).Shuns M := by
  have h : ∀ c, isMark M c = true → xmlMid U c = false := fun c hc => EolChar.notXml (M := M) (.inr hc)
  have h2 : ∀ c, isMark M c = true → xmlEnd U c = false := by
    intro c hc
    have := h c hc
    simp only [xmlMid, Bool.or_eq_false_iff] at this
    exact this.1
  have h1 : ∀ c, isMark M c = true → xmlStart U c = false := by
    intro c hc
    have := h2 c hc
    simp only [xmlEnd, Bool.or_eq_false_iff] at this
    exact this.1.1.1.1
  exact ⟨h1, ⟨h, h2⟩, trivial⟩

include hM in
variable (U) in
theorem reNumber_shuns : (reNumber U).Shuns M := by
  have h : ∀ c, isMark M c = true → reDigit U c = false := fun c hc => EolChar.notDigit (M := M) (.inr hc)
  have hp : ∀ c, isMark M c = true → (c == '.') = false := fun c hc => by
    simp [EolChar.ne (M := M) U (.inr hc) (a := '.')]
  have he : ∀ c, isMark M c = true → (c == 'e' || c == 'E') = false := fun c hc => by
    simp [EolChar.ne (M := M) U (.inr hc) (a := 'e'), EolChar.ne (M := M) U (.inr hc) (a := 'E')]
  have hs : ∀ c, isMark M c = true → (c == '+' || c == '-') = false := fun c hc => by
    simp [EolChar.ne (M := M) U (.inr hc) (a := '+'), EolChar.ne (M := M) U (.inr hc) (a := '-')]
  exact ⟨⟨⟨hp, h, h⟩, ⟨h, h⟩, ⟨hp, h⟩, trivial⟩, ⟨he, ⟨hs, trivial⟩, h, h⟩, trivial⟩

include hM in
variable (U) in
theorem reSign_shuns : reSign.Shuns M := by
  refine ⟨fun c hc => ?_, trivial⟩
  simp [EolChar.ne (M := M) U (.inr hc) (a := '+'), EolChar.ne (M := M) U (.inr hc) (a := '-')]

theorem reLine_shuns (ex : List Char) : (reLine M ex).Shuns M :=
  ⟨fun _ hc => EolChar.notLine (.inr hc), fun _ hc => EolChar.notLine (.inr hc)⟩

include hM in
variable (U) in
theorem reNl_shuns : reNl.Shuns M := by
  have key : ∀ c, isMark M c = true → (c == '\n') = false := by
    intro c hc
    simp only [beq_eq_false_iff_ne]
    rintro rfl
    rw [nl_not_mark (M := M) U] at hc
    cases hc
  exact ⟨key, key⟩

omit hM in
theorem lineChar_fair (ex : List Char) :
    Fair (M := M) (M' := M') (lineChar M ex) (lineChar M' ex) := by
  intro c hc
  have e : ∀ (M : Marks) (c : Char), lineChar M ex c = (!isMark M c && !(c == '\n') && !ex.elem c) := by
    intro M c
    simp only [lineChar, isMark, Bool.not_or]
  rw [e, e, recode_isMark hc]
  cases hm : isMark M c with
  | true => rfl
  | false => rw [recode_of_not hm]

mutual
/-- Literals of low characters, and no regular expressions. -/
def plainPeg : Peg NT → Bool
  | .lit l => l.all lowChar
  | .rx _ => false
  | .ref _ => true
  | .seq ps => plainPegs ps
  | .alt ps => plainPegs ps
  | .opt p => plainPeg p
  | .star p => plainPeg p
  | .plus p => plainPeg p
  | .not p => plainPeg p
def plainPegs : List (Peg NT) → Bool
  | [] => true
  | p :: ps => plainPeg p && plainPegs ps
end

variable [hM' : MarksApart M' U]

include hM hM' in
variable (U) in
theorem low_lit {l : Str} (h : l.all lowChar = true) : PegRel (N := NT) M M' (.lit l) (.lit l) := by
  have hl : ∀ c ∈ l, isMark M c = false := fun c hc => low_not_mark U (List.all_eq_true.1 h c hc)
  have e : l.map (recode M M') = l := by
    conv => rhs; rw [← List.map_id l]
    exact List.map_congr_left (fun c hc => recode_of_not (hl c hc))
  have := PegRel.lit (N := NT) (M := M) (M' := M') (l := l) (fun c hc => .inr (low_not_mark U (List.all_eq_true.1 h c hc)))
  rwa [e] at this

mutual
theorem plainPeg_rel (M M' : Marks) (U : Uni) [MarksApart M U] [MarksApart M' U] : ∀ {p : Peg NT}, plainPeg p = true → PegRel M M' p p
  | .lit _, h => low_lit U h
  | .rx _, h => by cases h
  | .ref n, _ => .ref n
  | .seq _, h => .seq (plainPegs_rel M M' U h)
  | .alt _, h => .alt (plainPegs_rel M M' U h)
  | .opt _, h => .opt (plainPeg_rel M M' U h)
  | .star _, h => .star (plainPeg_rel M M' U h)
  | .plus _, h => .plus (plainPeg_rel M M' U h)
  | .not _, h => .not (plainPeg_rel M M' U h)
theorem plainPegs_rel (M M' : Marks) (U : Uni) [MarksApart M U] [MarksApart M' U] : ∀ {ps : List (Peg NT)}, plainPegs ps = true → PegsRel M M' ps ps
  | [], _ => .nil
  | p :: ps, h => by
    simp only [plainPegs, Bool.and_eq_true] at h
    exact .cons (plainPeg_rel M M' U h.1) (plainPegs_rel M M' U h.2)
end

theorem mark_lit {c : Char} (h : isMark M c = true) : PegRel (N := NT) M M' (.lit [c]) (.lit [recode M M' c]) :=
  .lit (l := [c]) (fun d hd => by cases List.mem_singleton.1 hd; exact .inl h)

include hM hM' in
theorem rules_recode (hsp : ∀ c, isMark M c = true → isSpace c = false)
    (hsp' : ∀ c, isMark M' c = true → isSpace c = false) (n : NT) : PegRel M M' (rule M U n) (rule M' U n) := by
  have hx : ∀ {r : RE}, r.Shuns M → r.Shuns M' → PegRel (N := NT) M M' (.rx r) (.rx r) := fun a b => .rx (a.rel b)
  have hl : ∀ ex, PegRel (N := NT) M M' (.rx (reLine M ex)) (.rx (reLine M' ex)) :=
    fun ex => .rx ⟨lineChar_fair ex, lineChar_fair ex⟩
  have hw : ∀ {w : Str}, w.all lowChar = true → RRel (M := M) (M' := M') (RE.word w) (RE.word w) :=
    fun h => RE.Shuns.rel (word_shuns U h) (word_shuns U h)
  have hq : ∀ q, lowChar q = true → RRel (M := M) (M' := M') (reRaw q) (reRaw q) := by
    intro q hq
    have hne : ∀ c, isMark M c = true ∨ isMark M' c = true → (c == q) = false := by
      intro c hc
      simp only [beq_eq_false_iff_ne]
      rcases hc with h | h
      · exact mark_ne U h hq
      · exact mark_ne U h hq
    refine ⟨hw (by simp [hq]; rfl), .const (b := true) (fun c hc => ?_), .const (b := false) hne⟩
    simp only [bne, hne c hc]
    rfl
  have hd := hM.distinct
  simp only [Marks.Distinct, List.nodup_cons, List.mem_cons, List.not_mem_nil, or_false, not_or, not_false_eq_true,
    List.nodup_nil, and_true] at hd
  obtain ⟨⟨d1, d2, d3⟩, ⟨d4, d5⟩, d6⟩ := hd
  cases n
  case op_inplace => exact hx (reInplace_shuns U) (reInplace_shuns U)
  case mark_comment => exact hx (reComment_shuns U) (reComment_shuns U)
  case gap => exact hx (r := reGap) (blank_shuns U).1 (blank_shuns U).1
  case attr_short_lit => exact hx (reShort_shuns U) (reShort_shuns U)
  case qualifier => exact hx (reQualifier_shuns U) (reQualifier_shuns U)
  case op_comp => exact hx (reComp_shuns U hsp) (reComp_shuns U hsp')
  case name_id => exact .seq (.cons (.not (.ref _)) (.cons (hx (reName_shuns U) (reName_shuns U)) .nil))
  case name_reserved => exact hx (reReserved_shuns U) (reReserved_shuns U)
  case name_xml => exact hx (reXml_shuns U) (reXml_shuns U)
  case number_signed => exact .seq (.cons (hx (reSign_shuns U) (reSign_shuns U)) (.cons (.ref _) .nil))
  case number => exact hx (reNumber_shuns U) (reNumber_shuns U)
  case string_raw => exact .alt (.cons (.rx (hq _ rfl)) (.cons (.rx (hq _ rfl)) .nil))
  case escape => exact hx (reEscape_shuns U) (reEscape_shuns U)
  case verbatim => exact hl _
  case text => exact hl _
  case text_quot1 => exact hl _
  case text_quot2 => exact hl _
  case nl => exact hx (reNl_shuns U) (reNl_shuns U)
  case space => exact hx (r := reSpace) (blank_shuns U) (blank_shuns U)
  case ws => exact hx (r := reWs) (blank_shuns U).2 (blank_shuns U).2
  case path_import =>
    have key : ∀ c, isMark M c = true ∨ isMark M' c = true → (!(isSpace c || c == '"' || c == '\'')) = true := by
      intro c hc
      have h1 : isSpace c = false := hc.elim (hsp c) (hsp' c)
      have h2 : ∀ d, lowChar d = true → (c == d) = false := by
        intro d hd
        simp only [beq_eq_false_iff_ne]
        rcases hc with h | h
        · exact mark_ne U h hd
        · exact mark_ne U h hd
      simp only [h1, h2 '"' rfl, h2 '\'' rfl]
      rfl
    exact .rx ⟨.const key, .const key⟩
  case indent_s =>
    show PegRel M M' (.lit [M.indentS]) (.lit [M'.indentS])
    have := mark_lit (M := M) (M' := M') (c := M.indentS) (by simp [isMark])
    simpa [recode] using this
  case dedent_s =>
    show PegRel M M' (.lit [M.dedentS]) (.lit [M'.dedentS])
    have := mark_lit (M := M) (M' := M') (c := M.dedentS) (by simp [isMark])
    simpa [recode, Ne.symm d1] using this
  case indent_t =>
    show PegRel M M' (.lit [M.indentT]) (.lit [M'.indentT])
    have := mark_lit (M := M) (M' := M') (c := M.indentT) (by simp [isMark])
    simpa [recode, Ne.symm d2, Ne.symm d4] using this
  case dedent_t =>
    show PegRel M M' (.lit [M.dedentT]) (.lit [M'.dedentT])
    have := mark_lit (M := M) (M' := M') (c := M.dedentT) (by simp [isMark])
    simpa [recode, Ne.symm d3, Ne.symm d5, Ne.symm d6] using this
  all_goals exact plainPeg_rel M M' U rfl

/-- Parsing of the recoded text. -/
def recodeParse (M M' : Marks) : Except ParseErr (PTree NT) → Except ParseErr (PTree NT)
  | .ok t => .ok (t.recode M M')
  | .error (.incomplete rest) => .error (.incomplete (rest.map (recode M M')))
  | .error e => .error e

include hM hM' in
theorem parse_recode (hsp : ∀ c, isMark M c = true → isSpace c = false)
    (hsp' : ∀ c, isMark M' c = true → isSpace c = false) {s : Str} (hs : ∀ c ∈ s, CodeChar M M' c) :
    parse M' U (s.map (recode M M')) = recodeParse M M' (parse M U s) := by
  unfold parse
  rw [List.length_map, (run_recode hM'.distinct (rules_recode hsp hsp') _).1 _ _ s (.ref .document) hs]
  cases run (rule M U) (parseFuel s.length) (.ref .document) s with
  | fail => rfl
  | timeout => rfl
  | ok t rest => cases rest <;> rfl

theorem change_recode (hd : Marks.Distinct M) (a b : Str) : change M' a b = (change M a b).map (recode M M') := by
  simp only [Marks.Distinct, List.nodup_cons, List.mem_cons, List.not_mem_nil, or_false, not_or, not_false_eq_true,
    List.nodup_nil, and_true] at hd
  obtain ⟨⟨d1, d2, d3⟩, ⟨d4, d5⟩, d6⟩ := hd
  have hi : ∀ s, indentSymbols M' s = (indentSymbols M s).map (recode M M') := by
    intro s
    simp only [indentSymbols, List.map_map]
    refine List.map_congr_left (fun c _ => ?_)
    simp only [Function.comp]
    split <;> simp [recode, Ne.symm d2, Ne.symm d4]
  have hD : ∀ s, dedentSymbols M' s = (dedentSymbols M s).map (recode M M') := by
    intro s
    simp only [dedentSymbols, List.map_map]
    refine List.map_congr_left (fun c _ => ?_)
    simp only [Function.comp]
    split <;> simp [recode, Ne.symm d1, Ne.symm d3, Ne.symm d5, Ne.symm d6]
  unfold change
  split
  · rw [hi]
  · rw [hD]

end
end Verif
