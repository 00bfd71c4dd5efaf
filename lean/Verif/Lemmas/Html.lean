import Verif.Model.Html
import Verif.Spec.DomEvents
import Verif.Lemmas.PyStr

/-! Lemmas on escaping and the tokenizer. -/

namespace Verif
open Py Spec

theorem flatMap_congr' {α β} {l : List α} {f g : α → List β} (h : ∀ a ∈ l, f a = g a) :
    l.flatMap f = l.flatMap g := by
  induction l with
  | nil => rfl
  | cons a l ih =>
    simp only [List.flatMap_cons]
    rw [h a (by simp), ih (fun b hb => h b (by simp [hb]))]

/-- Escaped form of one character of text. -/
def escChar (c : Char) : Str :=
  if c = '&' then s!!"&amp;" else if c = '>' then s!!"&gt;" else if c = '<' then s!!"&lt;" else [c]

theorem htmlEscape_eq (s : Str) : htmlEscape s = s.flatMap escChar := by
  unfold htmlEscape
  simp only [replace_single, List.flatMap_assoc]
  apply flatMap_congr'
  intro c _
  by_cases h1 : c = '&'
  · subst h1; simp [escChar]
  · by_cases h2 : c = '>'
    · subst h2; simp [escChar]
    · by_cases h3 : c = '<'
      · subst h3; simp [escChar]
      · simp [escChar, h1, h2, h3]

/-- Escaped form of one character of an attribute value, before quoting. -/
def attrChar (c : Char) : Str :=
  if c = '&' then s!!"&amp;" else if c = '>' then s!!"&gt;" else if c = '<' then s!!"&lt;"
  else if c = '\n' then s!!"&#10;" else if c = '\r' then s!!"&#13;"
  else if c = '\t' then s!!"&#9;" else [c]

theorem saxEscape_eq (s : Str) : saxEscape s = s.flatMap attrChar := by
  unfold saxEscape
  simp only [replace_single, List.flatMap_assoc]
  apply flatMap_congr'
  intro c _
  by_cases h1 : c = '&'
  · subst h1; simp [attrChar]
  by_cases h2 : c = '>'
  · subst h2; simp [attrChar]
  by_cases h3 : c = '<'
  · subst h3; simp [attrChar]
  by_cases h4 : c = '\n'
  · subst h4; simp [attrChar]
  by_cases h5 : c = '\r'
  · subst h5; simp [attrChar]
  by_cases h6 : c = '\t'
  · subst h6; simp [attrChar]
  simp [attrChar, h1, h2, h3, h4, h5, h6]

/-- Like `attrChar`, with the double quote escaped as well. -/
def attrCharQ (c : Char) : Str := if c = '"' then s!!"&quot;" else attrChar c

theorem saxEscape_quot_eq (s : Str) :
    replace (saxEscape s) ['"'] (s!!"&quot;") = s.flatMap attrCharQ := by
  rw [saxEscape_eq, replace_single, List.flatMap_assoc]
  apply flatMap_congr'
  intro c _
  by_cases h1 : c = '&'
  · subst h1; simp [attrChar, attrCharQ]
  by_cases h2 : c = '>'
  · subst h2; simp [attrChar, attrCharQ]
  by_cases h3 : c = '<'
  · subst h3; simp [attrChar, attrCharQ]
  by_cases h4 : c = '\n'
  · subst h4; simp [attrChar, attrCharQ]
  by_cases h5 : c = '\r'
  · subst h5; simp [attrChar, attrCharQ]
  by_cases h6 : c = '\t'
  · subst h6; simp [attrChar, attrCharQ]
  by_cases h7 : c = '"'
  · subst h7; simp [attrChar, attrCharQ]
  simp [attrChar, attrCharQ, h1, h2, h3, h4, h5, h6, h7]

theorem mem_escChar {x c : Char} (h : x ∈ escChar c) : x ≠ '<' ∧ x ≠ '>' := by
  unfold escChar at h
  split at h
  · simp at h; rcases h with h|h|h|h|h <;> subst h <;> decide
  split at h
  · simp at h; rcases h with h|h|h|h <;> subst h <;> decide
  split at h
  · simp at h; rcases h with h|h|h|h <;> subst h <;> decide
  · simp at h; subst h; constructor <;> assumption

theorem mem_attrChar {x c : Char} (h : x ∈ attrChar c) :
    x ≠ '<' ∧ x ≠ '>' ∧ x ≠ '\n' ∧ x ≠ '\t' ∧ x ≠ '\r' ∧ (x = '"' ∨ x = '\'' → x = c) := by
  unfold attrChar at h
  split at h
  · simp at h; rcases h with h|h|h|h|h <;> subst h <;> simp
  split at h
  · simp at h; rcases h with h|h|h|h <;> subst h <;> simp
  split at h
  · simp at h; rcases h with h|h|h|h <;> subst h <;> simp
  split at h
  · simp at h; rcases h with h|h|h|h|h <;> subst h <;> simp
  split at h
  · simp at h; rcases h with h|h|h|h|h <;> subst h <;> simp
  split at h
  · simp at h; rcases h with h|h|h|h <;> subst h <;> simp
  · simp at h; subst h; simp_all

theorem mem_attrCharQ {x c : Char} (h : x ∈ attrCharQ c) :
    x ≠ '"' ∧ x ≠ '<' ∧ x ≠ '>' ∧ x ≠ '\n' ∧ x ≠ '\t' ∧ x ≠ '\r' := by
  unfold attrCharQ at h
  split at h
  · simp at h; rcases h with h|h|h|h|h|h <;> subst h <;> simp
  · have := mem_attrChar h
    refine ⟨fun e => ?_, this.1, this.2.1, this.2.2.1, this.2.2.2.1, this.2.2.2.2.1⟩
    have h2 := this.2.2.2.2.2 (Or.inl e)
    simp_all

theorem mem_flatMap_attrChar {v : Str} (x : Char) (hx : x ∈ v.flatMap attrChar) :
    x ≠ '<' ∧ x ≠ '>' ∧ x ≠ '\n' ∧ x ≠ '\t' ∧ x ≠ '\r' := by
  obtain ⟨c, _, hc⟩ := List.mem_flatMap.1 hx
  have := mem_attrChar hc
  exact ⟨this.1, this.2.1, this.2.2.1, this.2.2.2.1, this.2.2.2.2.1⟩

theorem mem_flatMap_attrCharQ {v : Str} (x : Char) (hx : x ∈ v.flatMap attrCharQ) :
    x ≠ '"' ∧ x ≠ '<' ∧ x ≠ '>' ∧ x ≠ '\n' ∧ x ≠ '\t' ∧ x ≠ '\r' := by
  obtain ⟨c, _, hc⟩ := List.mem_flatMap.1 hx
  exact mem_attrCharQ hc

/-- Every ampersand of a concatenation of entities and plain characters starts an entity. -/
theorem amp_flatMap (f : Char → Str) (P : Str → Prop)
    (hP : ∀ a b, P a → P (a ++ b))
    (hf : ∀ c pre post, f c = pre ++ '&' :: post → P post) (s : Str) :
    ∀ pre post, s.flatMap f = pre ++ '&' :: post → P post := by
  induction s with
  | nil => intro pre post h; simp at h
  | cons c s ih =>
    intro pre post h
    rw [List.flatMap_cons, List.append_eq_append_iff] at h
    rcases h with ⟨as, h1, h2⟩ | ⟨bs, h1, h2⟩
    · exact ih _ _ h2
    · cases bs with
      | nil => exact ih [] post (by simpa using h2.symm)
      | cons b bs =>
        simp only [List.cons_append, List.cons.injEq] at h2
        obtain ⟨rfl, h2⟩ := h2
        rw [h2]
        exact hP _ _ (hf c _ _ h1)

theorem escChar_amp {c : Char} {pre post : Str} (h : escChar c = pre ++ '&' :: post) :
    (s!!"amp;") <+: post ∨ (s!!"lt;") <+: post ∨ (s!!"gt;") <+: post := by
  unfold escChar at h
  split at h
  · cases pre with
    | nil => simp at h; subst h; simp
    | cons p pre =>
      simp at h
      have : '&' ∈ (s!!"amp;") := by rw [h.2]; simp
      simp at this
  split at h
  · cases pre with
    | nil => simp at h; subst h; simp
    | cons p pre =>
      simp at h
      have : '&' ∈ (s!!"gt;") := by rw [h.2]; simp
      simp at this
  split at h
  · cases pre with
    | nil => simp at h; subst h; simp
    | cons p pre =>
      simp at h
      have : '&' ∈ (s!!"lt;") := by rw [h.2]; simp
      simp at this
  · cases pre with
    | nil => simp at h; exact absurd h.1 (by assumption)
    | cons p pre => simp at h

/-- Prefixes of the entities that occur in attribute values. -/
def AttrEntity (post : Str) : Prop :=
  (s!!"amp;") <+: post ∨ (s!!"lt;") <+: post ∨ (s!!"gt;") <+: post ∨ (s!!"quot;") <+: post ∨
    (s!!"#10;") <+: post ∨ (s!!"#13;") <+: post ∨ (s!!"#9;") <+: post

theorem AttrEntity.append {a : Str} (b : Str) (h : AttrEntity a) : AttrEntity (a ++ b) := by
  unfold AttrEntity at *
  rcases h with h|h|h|h|h|h|h <;> have h' := h.trans (List.prefix_append a b) <;> simp only [h', true_or, or_true]

theorem amp_entity {pre post e : Str} (he : '&' ∉ e) (h : '&' :: e = pre ++ '&' :: post) :
    post = e := by
  cases pre with
  | nil => simp at h; exact h.symm
  | cons p pre =>
    simp at h
    exact absurd (by rw [h.2]; simp) he

theorem attrChar_amp {c : Char} {pre post : Str} (h : attrChar c = pre ++ '&' :: post) :
    AttrEntity post := by
  unfold attrChar at h
  split at h
  · have := amp_entity (by simp) h; subst this; simp [AttrEntity]
  split at h
  · have := amp_entity (by simp) h; subst this; simp [AttrEntity]
  split at h
  · have := amp_entity (by simp) h; subst this; simp [AttrEntity]
  split at h
  · have := amp_entity (by simp) h; subst this; simp [AttrEntity]
  split at h
  · have := amp_entity (by simp) h; subst this; simp [AttrEntity]
  split at h
  · have := amp_entity (by simp) h; subst this; simp [AttrEntity]
  · cases pre with
    | nil => simp at h; exact absurd h.1 (by assumption)
    | cons p pre => simp at h

theorem attrCharQ_amp {c : Char} {pre post : Str} (h : attrCharQ c = pre ++ '&' :: post) :
    AttrEntity post := by
  unfold attrCharQ at h
  split at h
  · have := amp_entity (by simp) h; subst this; simp [AttrEntity]
  · exact attrChar_amp h

theorem decodeText_ne {c : Char} (h : c ≠ '&') (r : Str) :
    decodeText (c :: r) = c :: decodeText r := by
  rw [decodeText] <;> intros <;> simp_all

theorem decodeText_esc (c : Char) (r : Str) :
    decodeText (escChar c ++ r) = c :: decodeText r := by
  unfold escChar
  split
  · subst c; simp [decodeText]
  split
  · subst c; simp [decodeText]
  split
  · subst c; simp [decodeText]
  · exact decodeText_ne (by assumption) r

theorem decodeAttr_ne {c : Char} (h : c ≠ '&') (r : Str) :
    decodeAttr (c :: r) = c :: decodeAttr r := by
  rw [decodeAttr] <;> intros <;> simp_all

theorem decodeAttr_attrChar (c : Char) (r : Str) :
    decodeAttr (attrChar c ++ r) = c :: decodeAttr r := by
  unfold attrChar
  split
  · subst c; simp [decodeAttr]
  split
  · subst c; simp [decodeAttr]
  split
  · subst c; simp [decodeAttr]
  split
  · subst c; simp [decodeAttr]
  split
  · subst c; simp [decodeAttr]
  split
  · subst c; simp [decodeAttr]
  · exact decodeAttr_ne (by assumption) r

theorem decodeAttr_attrCharQ (c : Char) (r : Str) :
    decodeAttr (attrCharQ c ++ r) = c :: decodeAttr r := by
  unfold attrCharQ
  split
  · subst c; simp [decodeAttr]
  · exact decodeAttr_attrChar c r

theorem decodeAttr_flatMap (f : Char → Str)
    (hf : ∀ c r, decodeAttr (f c ++ r) = c :: decodeAttr r) (s : Str) :
    decodeAttr (s.flatMap f) = s := by
  induction s with
  | nil => simp [decodeAttr]
  | cons c s ih => rw [List.flatMap_cons, hf, ih]

/-- Without ampersands there is nothing to decode. -/
theorem decodeAttr_of_not_mem {s : Str} (h : '&' ∉ s) : decodeAttr s = s := by
  induction s with
  | nil => simp [decodeAttr]
  | cons c s ih =>
    simp only [List.mem_cons, not_or] at h
    rw [decodeAttr_ne (fun e => h.1 e.symm), ih h.2]

/-- The quoted form of an attribute value: a quote character and the text inside. -/
theorem quoteattr_form (v : Str) :
    ∃ q inner, quoteattr v = [q] ++ inner ++ [q] ∧ (q = '"' ∨ q = '\'') ∧
      SafeAttrInner q inner ∧ decodeAttr inner = v := by
  unfold quoteattr
  simp only [contains, List.elem_eq_mem]
  split
  · split
    · refine ⟨'"', _, rfl, Or.inl rfl, ?_, ?_⟩
      · rw [saxEscape_quot_eq]
        have hm := @mem_flatMap_attrCharQ v
        refine ⟨fun h => (hm _ h).1 rfl, fun h => (hm _ h).2.1 rfl, fun h => (hm _ h).2.2.1 rfl,
          fun h => (hm _ h).2.2.2.1 rfl, fun h => (hm _ h).2.2.2.2.1 rfl,
          fun h => (hm _ h).2.2.2.2.2 rfl, ?_⟩
        exact amp_flatMap attrCharQ AttrEntity (fun a b => AttrEntity.append b)
          (fun c pre post => attrCharQ_amp) v
      · rw [saxEscape_quot_eq]; exact decodeAttr_flatMap _ decodeAttr_attrCharQ v
    · rename_i _ hq
      refine ⟨'\'', _, rfl, Or.inr rfl, ?_, ?_⟩
      · rw [saxEscape_eq] at *
        have hm := @mem_flatMap_attrChar v
        refine ⟨by simpa using hq, fun h => (hm _ h).1 rfl, fun h => (hm _ h).2.1 rfl,
          fun h => (hm _ h).2.2.1 rfl, fun h => (hm _ h).2.2.2.1 rfl,
          fun h => (hm _ h).2.2.2.2 rfl, ?_⟩
        exact amp_flatMap attrChar AttrEntity (fun a b => AttrEntity.append b)
          (fun c pre post => attrChar_amp) v
      · rw [saxEscape_eq]; exact decodeAttr_flatMap _ decodeAttr_attrChar v
  · rename_i hq
    refine ⟨'"', _, rfl, Or.inl rfl, ?_, ?_⟩
    · rw [saxEscape_eq] at *
      have hm := @mem_flatMap_attrChar v
      refine ⟨by simpa using hq, fun h => (hm _ h).1 rfl, fun h => (hm _ h).2.1 rfl,
        fun h => (hm _ h).2.2.1 rfl, fun h => (hm _ h).2.2.2.1 rfl,
        fun h => (hm _ h).2.2.2.2 rfl, ?_⟩
      exact amp_flatMap attrChar AttrEntity (fun a b => AttrEntity.append b)
        (fun c pre post => attrChar_amp) v
    · rw [saxEscape_eq]; exact decodeAttr_flatMap _ decodeAttr_attrChar v

/-! ### Tokenizer -/

/-- Every newline is read in the text state. -/
def okNl : LexSt → Str → Prop
  | _, [] => True
  | st, c :: cs => (c = '\n' → st = .text) ∧ okNl (lexStep st c).1 cs

/-- Reading `s` in state `st` leads to `st'`, emits `ev`, and meets newlines only in text. -/
structure Lex (st : LexSt) (s : Str) (st' : LexSt) (ev : List Event) : Prop where
  state : lexState st s = st'
  events : lexEvents st s = ev
  nl : okNl st s

theorem Lex.nil (st : LexSt) : Lex st [] st [] := ⟨rfl, rfl, trivial⟩

theorem Lex.cons {st st1 st' : LexSt} {c : Char} {s : Str} {ev1 ev2 : List Event}
    (h1 : lexStep st c = (st1, ev1)) (hn : c = '\n' → st = .text) (h2 : Lex st1 s st' ev2) :
    Lex st (c :: s) st' (ev1 ++ ev2) := by
  refine ⟨?_, ?_, ?_⟩
  · have := h2.state; simp only [lexState, List.foldl_cons, h1] at *; exact this
  · simp only [lexEvents, h1, h2.events]
  · simp only [okNl, h1]; exact ⟨hn, h2.nl⟩

theorem Lex.append {st st1 st' : LexSt} {a b : Str} {ev1 ev2 : List Event}
    (h1 : Lex st a st1 ev1) (h2 : Lex st1 b st' ev2) : Lex st (a ++ b) st' (ev1 ++ ev2) := by
  induction a generalizing st ev1 with
  | nil =>
    have e1 := h1.state; have e2 := h1.events
    simp only [lexState, List.foldl_nil] at e1
    simp only [lexEvents] at e2
    subst e1; subst e2; exact h2
  | cons c a ih =>
    have e1 := h1.state; have e2 := h1.events; have e3 := h1.nl
    simp only [lexEvents] at e2
    simp only [okNl] at e3
    have := ih (st := (lexStep st c).1) (ev1 := lexEvents (lexStep st c).1 a)
      ⟨by simpa only [lexState, List.foldl_cons] using e1, rfl, e3.2⟩
    have := Lex.cons (st := st) (c := c) (st1 := (lexStep st c).1) (ev1 := (lexStep st c).2) rfl
      e3.1 this
    subst e2
    simpa using this

/-- Whitespace in text is silent. -/
theorem lexStep_space {c : Char} (h : isSpace c = true) : lexStep .text c = (.text, []) := by
  have h1 : c ≠ '<' := by rintro rfl; simp [isSpace] at h
  have h2 : c ≠ '&' := by rintro rfl; simp [isSpace] at h
  simp [lexStep, h1, h2, h]

theorem Lex.spaces {s : Str} (h : ∀ c ∈ s, isSpace c = true) : Lex .text s .text [] := by
  induction s with
  | nil => exact Lex.nil _
  | cons c s ih =>
    have := Lex.cons (lexStep_space (h c (by simp))) (fun _ => rfl)
      (ih (fun d hd => h d (by simp [hd])))
    simpa using this

/-- Indentation does not change what a reader sees. -/
theorem Lex.addIndentScan {ind : Str} (hi : ∀ c ∈ ind, isSpace c = true) {st st' : LexSt}
    {s : Str} {ev : List Event} (h : Lex st s st' ev) : Lex st (addIndentScan ind s) st' ev := by
  induction s generalizing st ev with
  | nil => simpa [Verif.addIndentScan] using h
  | cons c s ih =>
    have e1 := h.state; have e2 := h.events; have e3 := h.nl
    simp only [lexEvents] at e2
    simp only [okNl] at e3
    have htail : Lex (lexStep st c).1 s st' (lexEvents (lexStep st c).1 s) :=
      ⟨by simpa only [lexState, List.foldl_cons] using e1, rfl, e3.2⟩
    have hrec := ih htail
    subst e2
    by_cases hc : c = '\n'
    · subst hc
      have hst := e3.1 rfl
      subst hst
      have hs : lexStep .text '\n' = (.text, []) := lexStep_space (by simp [isSpace])
      rw [hs] at hrec htail
      rw [hs]
      cases s with
      | nil =>
        simp only [Verif.addIndentScan] at hrec ⊢
        exact Lex.cons hs (fun _ => rfl) hrec
      | cons d ds =>
        simp only [Verif.addIndentScan, if_true] at hrec ⊢
        by_cases hd : d = '\n'
        · simp only [hd, if_true] at hrec ⊢
          exact Lex.cons hs (fun _ => rfl) hrec
        · simp only [hd, if_false] at hrec ⊢
          have := Lex.cons hs (fun _ => rfl) (Lex.append (Lex.spaces hi) hrec)
          simpa using this
    · simp only [Verif.addIndentScan, hc, if_false]
      exact Lex.cons rfl (fun e => absurd e hc) hrec

theorem Lex.addIndent {ind : Str} (hi : ∀ c ∈ ind, isSpace c = true) {st st' : LexSt}
    {s : Str} {ev : List Event} (h : Lex st s st' ev) : Lex st (addIndent s ind) st' ev := by
  unfold Verif.addIndent
  split
  · exact h
  · exact Lex.addIndentScan hi h

theorem SafeText.tail {a s : Str} (h : SafeText (a ++ s)) : SafeText s := by
  refine ⟨fun m => h.1 (by simp [m]), fun m => h.2.1 (by simp [m]), ?_⟩
  intro pre post e
  exact h.2.2 (a ++ pre) post (by rw [e]; simp)

/-- Safe text is read as its visible decoded characters. -/
theorem Lex.safe (s : Str) (h : SafeText s) : Lex .text s .text (textEvents s) := by
  unfold textEvents
  fun_induction decodeText s with
  | case1 r ih =>
    have := ih (SafeText.tail (a := s!!"&amp;") h)
    have e : Lex .text (s!!"&amp;") .text [.chr '&'] := ⟨by decide, by decide, by simp [okNl]⟩
    have hsp : isSpace '&' = false := by decide
    simpa [hsp] using Lex.append e this
  | case2 r ih =>
    have := ih (SafeText.tail (a := s!!"&lt;") h)
    have e : Lex .text (s!!"&lt;") .text [.chr '<'] := ⟨by decide, by decide, by simp [okNl]⟩
    have hsp : isSpace '<' = false := by decide
    simpa [hsp] using Lex.append e this
  | case3 r ih =>
    have := ih (SafeText.tail (a := s!!"&gt;") h)
    have e : Lex .text (s!!"&gt;") .text [.chr '>'] := ⟨by decide, by decide, by simp [okNl]⟩
    have hsp : isSpace '>' = false := by decide
    simpa [hsp] using Lex.append e this
  | case4 c r n1 n2 n3 ih =>
    have := ih (SafeText.tail (a := [c]) h)
    have hlt : c ≠ '<' := by rintro rfl; exact h.1 (by simp)
    have hamp : c ≠ '&' := by
      rintro rfl
      rcases h.2.2 [] r rfl with hh | hh | hh
      · obtain ⟨t, ht⟩ := hh; exact n1 t rfl (by simpa using ht.symm)
      · obtain ⟨t, ht⟩ := hh; exact n2 t rfl (by simpa using ht.symm)
      · obtain ⟨t, ht⟩ := hh; exact n3 t rfl (by simpa using ht.symm)
    by_cases hs : isSpace c = true
    · have := Lex.cons (lexStep_space hs) (fun _ => rfl) this
      simpa [hs] using this
    · have e : lexStep .text c = (.text, [.chr c]) := by simp [lexStep, hlt, hamp, hs]
      have := Lex.cons e (fun _ => rfl) this
      simpa [hs] using this
  | case5 => simpa using Lex.nil .text

theorem nameChar_ne {c : Char} (h : isNameChar c = true) :
    isSpace c = false ∧ c ≠ '&' ∧ c ≠ '"' ∧ c ≠ '\'' ∧ c ≠ '<' ∧ c ≠ '>' ∧ c ≠ '/' ∧ c ≠ '=' ∧
      c ≠ ' ' ∧ c ≠ '\n' := by
  have h0 := h
  simp only [isNameChar, Bool.and_eq_true, Bool.not_eq_true', bne_iff_ne] at h
  obtain ⟨⟨⟨⟨⟨⟨⟨h1, h2⟩, h3⟩, h4⟩, h5⟩, h6⟩, h7⟩, h8⟩ := h
  refine ⟨h1, h2, h3, h4, h5, h6, h7, h8, ?_, ?_⟩
  · rintro rfl; simp [isSpace] at h1
  · rintro rfl; simp [isSpace] at h1

theorem Lex.tagNameTail (acc n : Str) (h : ∀ c ∈ n, isNameChar c = true) :
    Lex (.tagName acc) n (.tagName (acc ++ n)) [] := by
  induction n generalizing acc with
  | nil => simpa using Lex.nil _
  | cons c n ih =>
    have hc := h c (by simp)
    have hn := nameChar_ne hc
    have e : lexStep (.tagName acc) c = (.tagName (acc ++ [c]), []) := by
      simp [lexStep, hn, hc]
    have := Lex.cons e (fun e => absurd e hn.2.2.2.2.2.2.2.2.2)
      (ih (acc ++ [c]) (fun d hd => h d (by simp [hd])))
    simpa using this

theorem Lex.tagOpen {n : Str} (h : ValidName n) : Lex .text ('<' :: n) (.tagName n) [] := by
  obtain ⟨hne, hch⟩ := h
  cases n with
  | nil => exact absurd rfl hne
  | cons c n =>
    have hc := hch c (by simp)
    have hn := nameChar_ne hc
    have e0 : lexStep .text '<' = (.tagOpen, []) := rfl
    have e1 : lexStep .tagOpen c = (.tagName [c], []) := by simp [lexStep, hn, hc]
    have := Lex.cons e0 (fun e => by simp at e)
      (Lex.cons e1 (fun e => absurd e hn.2.2.2.2.2.2.2.2.2)
        (Lex.tagNameTail [c] n (fun d hd => hch d (by simp [hd]))))
    simpa using this

theorem Lex.closeTail (acc n : Str) (h : ∀ c ∈ n, isNameChar c = true) :
    Lex (.closeTag acc) n (.closeTag (acc ++ n)) [] := by
  induction n generalizing acc with
  | nil => simpa using Lex.nil _
  | cons c n ih =>
    have hc := h c (by simp)
    have hn := nameChar_ne hc
    have e : lexStep (.closeTag acc) c = (.closeTag (acc ++ [c]), []) := by
      simp [lexStep, hn, hc]
    have := Lex.cons e (fun e => absurd e hn.2.2.2.2.2.2.2.2.2)
      (ih (acc ++ [c]) (fun d hd => h d (by simp [hd])))
    simpa using this

theorem Lex.closeTag {n : Str} (h : ValidName n) :
    Lex .text ((s!!"</") ++ n ++ ['>']) .text [.close n] := by
  have e0 : Lex .text (s!!"</") (.closeTag []) [] := ⟨rfl, rfl, by simp [okNl]⟩
  have e2 : Lex (.closeTag n) ['>'] .text [.close n] :=
    ⟨by simp [lexState, lexStep], by simp [lexEvents, lexStep], by simp [okNl]⟩
  have := Lex.append (Lex.append e0 (Lex.closeTail [] n h.2)) (by simpa using e2)
  simpa using this

theorem Lex.attrTail (n : Str) (as : AttrList) (acc a : Str) (h : ∀ c ∈ a, isNameChar c = true) :
    Lex (.attrName n as acc) a (.attrName n as (acc ++ a)) [] := by
  induction a generalizing acc with
  | nil => simpa using Lex.nil _
  | cons c a ih =>
    have hc := h c (by simp)
    have hn := nameChar_ne hc
    have e : lexStep (.attrName n as acc) c = (.attrName n as (acc ++ [c]), []) := by
      simp [lexStep, hn, hc]
    have := Lex.cons e (fun e => absurd e hn.2.2.2.2.2.2.2.2.2)
      (ih (acc ++ [c]) (fun d hd => h d (by simp [hd])))
    simpa using this

theorem Lex.attrName (n : Str) (as : AttrList) {a : Str} (h : ValidName a) :
    Lex (.beforeAttr n as) a (.attrName n as a) [] := by
  obtain ⟨hne, hch⟩ := h
  cases a with
  | nil => exact absurd rfl hne
  | cons c a =>
    have hc := hch c (by simp)
    have hn := nameChar_ne hc
    have e1 : lexStep (.beforeAttr n as) c = (.attrName n as [c], []) := by simp [lexStep, hn, hc]
    have := Lex.cons e1 (fun e => absurd e hn.2.2.2.2.2.2.2.2.2)
        (Lex.attrTail n as [c] a (fun d hd => hch d (by simp [hd])))
    simpa using this

theorem Lex.valueTail (n : Str) (as : AttrList) (a : Str) (q : Char) (acc s : Str)
    (hq : q ∉ s) (hn : '\n' ∉ s) :
    Lex (.value n as a q acc) s (.value n as a q (acc ++ s)) [] := by
  induction s generalizing acc with
  | nil => simpa using Lex.nil _
  | cons c s ih =>
    simp only [List.mem_cons, not_or] at hq hn
    have e : lexStep (.value n as a q acc) c = (.value n as a q (acc ++ [c]), []) := by
      have : c ≠ q := fun e => hq.1 e.symm
      simp [lexStep, this]
    have := Lex.cons e (fun e => absurd e.symm hn.1) (ih (acc ++ [c]) hq.2 hn.2)
    simpa using this

/-- A quoted attribute value. -/
theorem Lex.value (n : Str) (as : AttrList) (a : Str) {q : Char} (hq : q = '"' ∨ q = '\'')
    {inner : Str} (h1 : q ∉ inner) (h2 : '\n' ∉ inner) :
    Lex (.attrName n as a) (['='] ++ ([q] ++ inner ++ [q]))
      (.beforeAttr n (as ++ [(a, some (decodeAttr inner))])) [] := by
  have e0 : Lex (.attrName n as a) ['='] (.beforeValue n as a) [] :=
    ⟨rfl, rfl, by simp [okNl]⟩
  have e1 : Lex (.beforeValue n as a) [q] (.value n as a q []) [] := by
    rcases hq with rfl | rfl <;> exact ⟨rfl, rfl, by simp [okNl]⟩
  have e2 := Lex.valueTail n as a q [] inner h1 h2
  have e3 : Lex (.value n as a q inner) [q]
      (.beforeAttr n (as ++ [(a, some (decodeAttr inner))])) [] := by
    refine ⟨by simp [lexState, lexStep], by simp [lexEvents, lexStep], ?_⟩
    rcases hq with rfl | rfl <;> simp [okNl]
  have := Lex.append e0 (Lex.append (Lex.append e1 e2) (by simpa using e3))
  simpa using this

/-- States right after a tag name, a bare attribute or a quoted attribute: all of them continue
in the same way on `' '` and `'>'`. -/
def AtEnd (st : LexSt) (n : Str) (as : AttrList) : Prop :=
  lexStep st ' ' = (.beforeAttr n as, []) ∧ lexStep st '>' = (.text, [.start n as])

/-- The attributes of a tag as `seenAttrs` reports one of them. -/
def seenAttr (mode : Mode) (a : Str × AttrVal) : AttrList := seenAttrs mode [a]

theorem seenAttrs_cons (mode : Mode) (a : Str × AttrVal) (kw : List (Str × AttrVal)) :
    seenAttrs mode (a :: kw) = seenAttr mode a ++ seenAttrs mode kw := by
  obtain ⟨n, v⟩ := a
  cases v with
  | bool b => cases b <;> simp [seenAttr, seenAttrs]
  | obj s => simp [seenAttr, seenAttrs]

theorem validName_no_amp {a : Str} (h : ValidName a) : '&' ∉ a ∧ '"' ∉ a ∧ '\n' ∉ a :=
  ⟨fun m => (nameChar_ne (h.2 _ m)).2.1 rfl, fun m => (nameChar_ne (h.2 _ m)).2.2.1 rfl,
    fun m => (nameChar_ne (h.2 _ m)).2.2.2.2.2.2.2.2.2 rfl⟩

/-- One rendered attribute is read back. -/
theorem Lex.attr (mode : Mode) (n : Str) (as : AttrList) {a : Str × AttrVal} (h : ValidName a.1)
    {r : Str} (hr : renderAttr mode a = some r) :
    ∃ st, Lex (.beforeAttr n as) r st [] ∧ AtEnd st n (as ++ seenAttr mode a) := by
  obtain ⟨a, v⟩ := a
  simp only at h
  cases v with
  | bool b =>
    cases b with
    | false => simp [renderAttr] at hr
    | true =>
      cases mode with
      | html =>
        simp only [renderAttr, Option.some.injEq] at hr
        subst hr
        refine ⟨_, Lex.attrName n as h, ?_⟩
        simp [AtEnd, lexStep, seenAttr, seenAttrs]
      | xhtml =>
        simp only [renderAttr, Option.some.injEq] at hr
        subst hr
        have hv := validName_no_amp h
        have hl := Lex.append (Lex.attrName n as h)
            (Lex.value n as a (q := '"') (Or.inl rfl) (inner := a) hv.2.1 hv.2.2)
        refine ⟨_, by simpa using hl, ?_⟩
        · rw [decodeAttr_of_not_mem hv.1]
          simp [AtEnd, lexStep, seenAttr, seenAttrs]
  | obj s =>
    simp only [renderAttr, Option.some.injEq] at hr
    subst hr
    obtain ⟨q, inner, e1, e2, e3, e4⟩ := quoteattr_form s
    have hl := Lex.append (Lex.attrName n as h)
        (Lex.value n as a e2 (inner := inner) e3.1 e3.2.2.2.1)
    refine ⟨_, by rw [e1]; simpa using hl, ?_⟩
    · rw [e4]
      simp [AtEnd, lexStep, seenAttr, seenAttrs]

theorem renderAttr_ne_nil {mode : Mode} {a : Str × AttrVal} (h : ValidName a.1)
    {r : Str} (hr : renderAttr mode a = some r) : r ≠ [] := by
  obtain ⟨a, v⟩ := a
  obtain ⟨hne, _⟩ := h
  cases v with
  | bool b =>
    cases b with
    | false => simp [renderAttr] at hr
    | true => cases mode <;> simp [renderAttr] at hr <;> subst hr <;> simp_all
  | obj s => simp [renderAttr] at hr; subst hr; simp

/-- The rendered attributes, each preceded by a space. -/
def attrsText (mode : Mode) (kw : List (Str × AttrVal)) : Str :=
  kw.flatMap (fun a => match renderAttr mode a with | none => [] | some r => ' ' :: r)

theorem join_space (n : Str) (ls : List Str) :
    join [' '] (n :: ls) = n ++ ls.flatMap (fun l => ' ' :: l) := by
  induction ls generalizing n with
  | nil => simp [join]
  | cons l ls ih => simp [join, ih]

theorem tagHead_eq (mode : Mode) (n : Str) (kw : List (Str × AttrVal))
    (h : ∀ a ∈ kw, ValidName a.1) : tagHead mode n kw = n ++ attrsText mode kw := by
  unfold tagHead attrsText
  rw [join_space]
  congr 1
  induction kw with
  | nil => rfl
  | cons a kw ih =>
    have ih := ih (fun b hb => h b (by simp [hb]))
    rw [List.flatMap_cons]
    cases hr : renderAttr mode a with
    | none => simp [hr, ih]
    | some r =>
      have hne := renderAttr_ne_nil (h a (by simp)) hr
      have : r.isEmpty = false := by cases r <;> simp_all
      simp [hr, ih, this]

theorem Lex.attrs (mode : Mode) (n : Str) (kw : List (Str × AttrVal))
    (h : ∀ a ∈ kw, ValidName a.1) (as : AttrList) (st : LexSt) (hst : AtEnd st n as) :
    ∃ st', Lex st (attrsText mode kw) st' [] ∧ AtEnd st' n (as ++ seenAttrs mode kw) := by
  induction kw generalizing as st with
  | nil => exact ⟨st, Lex.nil st, by simpa [seenAttrs] using hst⟩
  | cons a kw ih =>
    have ih := ih (fun b hb => h b (by simp [hb]))
    simp only [attrsText, List.flatMap_cons] at *
    cases hr : renderAttr mode a with
    | none =>
      obtain ⟨st', h1, h2⟩ := ih as st hst
      refine ⟨st', by simpa using h1, ?_⟩
      have : seenAttr mode a = [] := by
        obtain ⟨x, v⟩ := a
        cases v with
        | bool b => cases b <;> cases mode <;> simp [renderAttr, seenAttr, seenAttrs] at *
        | obj s => simp [renderAttr] at hr
      rw [seenAttrs_cons, this]; simpa using h2
    | some r =>
      obtain ⟨st1, h1, h2⟩ := Lex.attr mode n as (h a (by simp)) hr
      obtain ⟨st', h3, h4⟩ := ih _ st1 h2
      refine ⟨st', ?_, ?_⟩
      · have := Lex.append (Lex.cons hst.1 (fun e => by simp at e) h1) h3
        simpa using this
      · rw [seenAttrs_cons]; simpa using h4

/-- The start tag up to (not including) its end. -/
theorem Lex.head (mode : Mode) {n : Str} (hn : ValidName n) (kw : List (Str × AttrVal))
    (h : ∀ a ∈ kw, ValidName a.1) :
    ∃ st, Lex .text ('<' :: tagHead mode n kw) st [] ∧ AtEnd st n (seenAttrs mode kw) := by
  rw [tagHead_eq mode n kw h]
  have h0 : AtEnd (.tagName n) n [] := by simp [AtEnd, lexStep]
  obtain ⟨st, h1, h2⟩ := Lex.attrs mode n kw h [] _ h0
  refine ⟨st, ?_, by simpa using h2⟩
  have := Lex.append (Lex.tagOpen hn) h1
  simpa using this

theorem Lex.startTag (mode : Mode) {n : Str} (hn : ValidName n) (kw : List (Str × AttrVal))
    (h : ∀ a ∈ kw, ValidName a.1) :
    Lex .text (['<'] ++ tagHead mode n kw ++ ['>']) .text [.start n (seenAttrs mode kw)] := by
  obtain ⟨st, h1, h2⟩ := Lex.head mode hn kw h
  have := Lex.append h1 (Lex.cons h2.2 (fun e => by simp at e) (Lex.nil _))
  simpa using this

theorem Lex.voidTag (mode : Mode) {n : Str} (hn : ValidName n) (kw : List (Str × AttrVal))
    (h : ∀ a ∈ kw, ValidName a.1) :
    Lex .text (['<'] ++ tagHead mode n kw ++ (s!!" />")) .text
      [.void n (seenAttrs mode kw)] := by
  obtain ⟨st, h1, h2⟩ := Lex.head mode hn kw h
  have e : Lex (.beforeAttr n (seenAttrs mode kw)) (s!!"/>") .text
      [.void n (seenAttrs mode kw)] :=
    ⟨by simp [lexState, lexStep], by simp [lexEvents, lexStep], by simp [okNl]⟩
  have := Lex.append h1 (Lex.cons h2.1 (fun e => by simp at e) e)
  simpa using this

theorem Lex.nlOpt (b : Bool) : Lex .text (if b then ['\n'] else []) .text [] := by
  cases b
  · exact Lex.nil _
  · exact Lex.spaces (by simp [isSpace])

/-- A non-void element around a well-formed body. -/
theorem Lex.element (mode : Mode) {n : Str} (hn : ValidName n) (kw : List (Str × AttrVal))
    (h : ∀ a ∈ kw, ValidName a.1) {body : Str} {ev : List Event} (hb : Lex .text body .text ev)
    {out : Str} (ho : markupExpand' false mode n (.ok body) kw = .ok out) :
    Lex .text out .text (.start n (seenAttrs mode kw) :: ev ++ [.close n]) := by
  simp only [markupExpand', bind, Except.bind, pure, Except.pure, Bool.false_eq_true, if_false,
    Except.ok.injEq] at ho
  subst ho
  have hnl : Lex .text (if body.take 1 = ['\n'] then ['\n'] else []) .text [] := by
    split
    · exact Lex.spaces (by simp [isSpace])
    · exact Lex.nil _
  have := Lex.append (Lex.append (Lex.append (Lex.startTag mode hn kw h) hb) hnl)
    (Lex.closeTag hn)
  simpa using this

/-- Dropping one leading newline changes nothing for a reader. -/
theorem Lex.dropLine {s : Str} {st' : LexSt} {ev : List Event} (h : Lex .text s st' ev) :
    Lex .text (dropLine s) st' ev := by
  unfold Verif.dropLine startsWith
  cases s with
  | nil => simpa using h
  | cons c s =>
    by_cases hc : c = '\n'
    · subst hc
      have hs : lexStep .text '\n' = (.text, []) := lexStep_space (by simp [isSpace])
      have e1 := h.state; have e2 := h.events; have e3 := h.nl
      simp only [lexEvents, hs, List.nil_append] at e2
      simp only [okNl, hs] at e3
      simp only [lexState, List.foldl_cons, hs] at e1
      simp [List.isPrefixOf]
      exact ⟨e1, e2, e3.2⟩
    · have : ¬ '\n' = c := fun e => hc e.symm
      simpa [List.isPrefixOf, this] using h

variable (ext : Nat → Except RenderErr Str → List AttrVal → List (Str × AttrVal) →
  Except RenderErr Str)

theorem applyIndent_ok {ind : Option Str} (hi : SpaceIndent ind) {s out : Str} {ev : List Event}
    (h : Lex .text s .text ev) (ho : applyIndent ind s = .ok out) : Lex .text out .text ev := by
  unfold applyIndent at ho
  cases ind with
  | none => simp at ho; subst ho; exact h
  | some i =>
    simp only at ho
    split at ho
    · cases ho
    · simp at ho; subst ho; exact Lex.addIndent hi h

theorem Except.bind_eq_ok {ε α β} {x : Except ε α} {f : α → Except ε β} {b : β} :
    (x >>= f) = .ok b ↔ ∃ a, x = .ok a ∧ f a = .ok b := by
  cases x <;> simp [bind, Except.bind]

theorem Lex.expand {t : TagObj} {body : Except RenderErr Str} {attrs : List AttrVal}
    {kw : List (Str × AttrVal)} (hkw : ∀ a ∈ kw, ValidName a.1) {out : Str} {ev : List Event}
    (hb : ∀ s, body = .ok s → Lex .text s .text ev)
    (hc : match t with
      | .null => True | .native _ => True | .markup name _ _ => ValidName name
      | .custom => ∀ name, attrs = [.obj name] → ValidName name
      | _ => False)
    (ho : expandTag ext t body attrs kw = .ok out) :
    Lex .text out .text (match t with
      | .markup name false mode => .start name (seenAttrs mode kw) :: ev ++ [.close name]
      | .markup name true mode => [.void name (seenAttrs mode kw)]
      | .custom => match attrs with
        | [.obj name] => .start name (seenAttrs .html kw) :: ev ++ [.close name]
        | _ => ev
      | _ => ev) := by
  cases t with
  | markup name void mode =>
    simp only [expandTag, markupExpand] at ho
    split at ho
    · cases ho
    · cases void with
      | false =>
        cases body with
        | error e => simp [markupExpand', bind, Except.bind] at ho
        | ok b => exact Lex.element mode hc kw hkw (hb b rfl) ho
      | true =>
        cases body with
        | error e => simp [markupExpand', bind, Except.bind] at ho
        | ok b =>
          simp only [markupExpand', bind, Except.bind, if_true] at ho
          split at ho
          · cases ho
          · simp [pure, Except.pure] at ho; subst ho
            simpa using Lex.voidTag mode hc kw hkw
  | custom =>
    simp only [expandTag, customExpand] at ho
    split at ho
    · cases ho
    · rename_i name
      cases body with
      | error e => simp [markupExpand', bind, Except.bind] at ho
      | ok b => exact Lex.element .html (hc name rfl) kw hkw (hb b rfl) ho
    · cases ho
    · cases ho
  | comment => exact hc.elim
  | null => exact hb out ho
  | native n => exact hb out ho
  | ext n i => exact hc.elim

mutual
theorem lex_renderNode (n : Node) (h : WellFormed n) (out : Str)
    (ho : renderNode ext n = .ok out) : Lex .text out .text (nodeEvents n) := by
  obtain ⟨cls, tag, attrs, kw, body, outline, indent⟩ := n
  simp only [WellFormed] at h
  obtain ⟨hi, h⟩ := h
  simp only [renderNode, renderBody, Except.bind_eq_ok] at ho
  obtain ⟨inner, h1, text, h2, h3⟩ := ho
  have hin : Lex .text inner .text (nodeEvents (.mk cls tag attrs kw body outline indent)) := by
    cases cls with
    | text s =>
      simp only [Except.ok.injEq] at h1
      subst h1
      simpa [nodeEvents] using Lex.safe s h
    | _ =>
      simp only at h
      have hb : ∀ s, renderNodes ext body = .ok s → Lex .text s .text (nodesEvents body) :=
        fun s hs => lex_renderNodes body h.2.1 s hs
      cases tag with
      | none => simpa [nodeEvents] using hb inner h1
      | some t =>
        have := Lex.expand ext (t := t) (attrs := attrs.getD []) h.1 hb (by
          have h3 := h.2.2
          cases t with
          | custom =>
            intro name e
            apply h3 name
            cases attrs <;> simp_all
          | _ => exact h3) h1
        cases t with
        | markup name void mode => cases void <;> simpa [nodeEvents] using this
        | custom =>
          cases attrs with
          | none => simpa [nodeEvents] using this
          | some as =>
            rcases as with _ | ⟨_ | _, _ | _⟩ <;> simpa [nodeEvents] using this
        | _ => simpa [nodeEvents] using this
  have htext : Lex .text text .text (nodeEvents (.mk cls tag attrs kw body outline indent)) := by
    refine applyIndent_ok hi ?_ h2
    have := Lex.append (Lex.nlOpt outline) hin
    simpa using this
  cases cls <;> simp [pure, Except.pure] at h3 <;> subst h3
  · exact htext
  · exact Lex.dropLine htext
  · exact htext
theorem lex_renderNodes (ns : List Node) (h : WellFormedAll ns) (out : Str)
    (ho : renderNodes ext ns = .ok out) : Lex .text out .text (nodesEvents ns) := by
  cases ns with
  | nil => simp [renderNodes] at ho; subst ho; simpa [nodesEvents] using Lex.nil _
  | cons n ns =>
    simp only [WellFormedAll] at h
    simp only [renderNodes, Except.bind_eq_ok] at ho
    obtain ⟨s, h1, r, h2, h3⟩ := ho
    simp [pure, Except.pure] at h3; subst h3
    have := Lex.append (lex_renderNode n h.1 s h1) (lex_renderNodes ns h.2 r h2)
    simpa [nodesEvents] using this
end

end Verif
