import Verif.Lemmas.Kinds

/-! Derivations: which trees the parser may create, regardless of priorities and lookahead. -/

namespace Verif
open Py Spec

section
variable {N : Type}

mutual
/-- Trees of an expression of the grammar. -/
inductive Derives (G : N → Peg N) : Peg N → PTree N → Prop
  | lit (l) : Derives G (.lit l) (.node none l [])
  | rx {r w} : r.Lang w → Derives G (.rx r) (.node none w [])
  | ref {n t} : Derives G (G n) t → Derives G (.ref n) (t.rename n)
  | seq {ps cs} : DerivesSeq G ps cs → Derives G (.seq ps) (.node none (texts cs) cs)
  | alt {ps p c} : p ∈ ps → Derives G p c → Derives G (.alt ps) (.node none c.text [c])
  | none {p} : Derives G (.opt p) (.node none [] [])
  | some {p c} : Derives G p c → Derives G (.opt p) (.node none c.text [c])
  | star {p cs} : DerivesStar G p cs → Derives G (.star p) (.node none (texts cs) cs)
  | plus {p c cs} : Derives G p c → DerivesStar G p cs → Derives G (.plus p) (.node none (texts (c :: cs)) (c :: cs))
  | not {p} : Derives G (.not p) (.node none [] [])
inductive DerivesSeq (G : N → Peg N) : List (Peg N) → List (PTree N) → Prop
  | nil : DerivesSeq G [] []
  | cons {p ps c cs} : Derives G p c → DerivesSeq G ps cs → DerivesSeq G (p :: ps) (c :: cs)
inductive DerivesStar (G : N → Peg N) : Peg N → List (PTree N) → Prop
  | nil {p} : DerivesStar G p []
  | cons {p c cs} : Derives G p c → DerivesStar G p cs → DerivesStar G p (c :: cs)
end

variable {G : N → Peg N}

theorem PRes.map_ok {α β : Type} {g : α → β} {r : PRes α} {b : β} {rest : Str} (h : r.map g = .ok b rest) :
    ∃ a, r = .ok a rest ∧ g a = b := by
  cases r with
  | fail => cases h
  | timeout => cases h
  | ok a r => cases h; exact ⟨a, rfl, rfl⟩

theorem node_text {f : Nat} {p : Peg N} {s rest : Str} {t : PTree N} (h : run G f p s = .ok t rest) : t.text ++ rest = s := by
  have := (run_whole G f).1 p s
  rw [h] at this
  exact this.1

theorem run_derives (f : Nat) :
    (∀ p s t rest, run G f p s = .ok t rest → Derives G p t) ∧
    (∀ ps s ts rest, runSeq G f ps s = .ok ts rest → DerivesSeq G ps ts) ∧
    (∀ ps s t rest, runAlt G f ps s = .ok t rest → ∃ p ∈ ps, Derives G p t) ∧
    (∀ p s ts rest, runStar G f p s = .ok ts rest → DerivesStar G p ts) ∧
    (∀ p s ts rest, runPlus G f p s = .ok ts rest → ∃ c cs, ts = c :: cs ∧ Derives G p c ∧ DerivesStar G p cs) ∧
    (∀ p s ts rest, runMore G f p s = .ok ts rest → DerivesStar G p ts) := by
  induction f with
  | zero =>
    refine ⟨?_, ?_, ?_, ?_, ?_, ?_⟩ <;> intro p s t rest h <;>
      simp only [run, runSeq, runAlt, runStar, runPlus, runMore] at h <;> cases h
  | succ f ih =>
    obtain ⟨h1, h2, h3, h4, h5, h6⟩ := ih
    refine ⟨?_, ?_, ?_, ?_, ?_, ?_⟩
    · intro p s t rest h
      cases p with
      | lit l =>
        simp only [run, runLit] at h
        split at h
        · rename_i hp
          obtain ⟨u, rfl⟩ := List.isPrefixOf_iff_prefix.1 hp
          cases h
          simp only [anon, List.drop_left, consumed_of_append]
          exact .lit l
        · cases h
      | rx r =>
        simp only [run, runRx] at h
        split at h
        · rename_i rest' hr
          cases h
          obtain ⟨w, rfl, hw⟩ := RE.rests_lang r s rest (List.mem_of_mem_head? hr)
          simp only [anon, consumed_of_append]
          exact .rx hw
        · cases h
      | ref n =>
        rw [run] at h
        obtain ⟨t', ht, rfl⟩ := PRes.map_ok h
        exact .ref (h1 _ _ _ _ ht)
      | seq ps =>
        rw [run] at h
        cases hr : runSeq G f ps s with
        | fail => rw [hr] at h; cases h
        | timeout => rw [hr] at h; cases h
        | ok cs r =>
          have hw := (run_whole G f).2.1 ps s
          rw [hr] at h hw
          cases h
          obtain ⟨rfl, -⟩ := hw
          simp only [anon, consumed_of_append]
          exact .seq (h2 _ _ _ _ hr)
      | alt ps =>
        rw [run] at h
        cases hr : runAlt G f ps s with
        | fail => rw [hr] at h; cases h
        | timeout => rw [hr] at h; cases h
        | ok c r =>
          have hw := (run_whole G f).2.2.1 ps s
          rw [hr] at h hw
          cases h
          obtain ⟨rfl, -⟩ := hw
          simp only [anon, consumed_of_append]
          obtain ⟨p, hp, hd⟩ := h3 _ _ _ _ hr
          exact .alt hp hd
      | opt p =>
        rw [run] at h
        cases hr : run G f p s with
        | fail => rw [hr] at h; cases h; simp only [anon, consumed_self]; exact .none
        | timeout => rw [hr] at h; cases h
        | ok c r =>
          have hw := node_text hr
          rw [hr] at h
          cases h
          subst hw
          simp only [anon, consumed_of_append]
          exact .some (h1 _ _ _ _ hr)
      | star p =>
        rw [run] at h
        cases hr : runStar G f p s with
        | fail => rw [hr] at h; cases h
        | timeout => rw [hr] at h; cases h
        | ok cs r =>
          have hw := (run_whole G f).2.2.2.1 p s
          rw [hr] at h hw
          cases h
          obtain ⟨rfl, -⟩ := hw
          simp only [anon, consumed_of_append]
          exact .star (h4 _ _ _ _ hr)
      | plus p =>
        rw [run] at h
        cases hr : runPlus G f p s with
        | fail => rw [hr] at h; cases h
        | timeout => rw [hr] at h; cases h
        | ok cs r =>
          have hw := (run_whole G f).2.2.2.2.1 p s
          rw [hr] at h hw
          cases h
          obtain ⟨rfl, -⟩ := hw
          simp only [anon, consumed_of_append]
          obtain ⟨c, cs, rfl, hc, hcs⟩ := h5 _ _ _ _ hr
          exact .plus hc hcs
      | not p =>
        rw [run] at h
        cases hr : run G f p s with
        | fail => rw [hr] at h; cases h; simp only [anon, consumed_self]; exact .not
        | timeout => rw [hr] at h; cases h
        | ok c r => rw [hr] at h; cases h
    · intro ps s ts rest h
      cases ps with
      | nil => simp only [runSeq] at h; cases h; exact .nil
      | cons p ps =>
        rw [runSeq] at h
        split at h
        · rename_i c r hr
          obtain ⟨cs, hcs, rfl⟩ := PRes.map_ok h
          exact .cons (h1 _ _ _ _ hr) (h2 _ _ _ _ hcs)
        · cases h
        · cases h
    · intro ps s t rest h
      cases ps with
      | nil => simp only [runAlt] at h; cases h
      | cons p ps =>
        rw [runAlt] at h
        split at h
        · rename_i c r hr
          cases h
          exact ⟨p, by simp, h1 _ _ _ _ hr⟩
        · obtain ⟨q, hq, hd⟩ := h3 _ _ _ _ h
          exact ⟨q, by simp [hq], hd⟩
        · cases h
    · intro p s ts rest h
      rw [runStar] at h
      split at h
      · rename_i c r hr
        split at h
        · cases h; exact .nil
        · obtain ⟨cs, hcs, rfl⟩ := PRes.map_ok h
          exact .cons (h1 _ _ _ _ hr) (h4 _ _ _ _ hcs)
      · cases h; exact .nil
      · cases h
    · intro p s ts rest h
      rw [runPlus] at h
      split at h
      · rename_i c r hr
        split at h
        · cases h; exact ⟨c, [], rfl, h1 _ _ _ _ hr, .nil⟩
        · obtain ⟨cs, hcs, rfl⟩ := PRes.map_ok h
          exact ⟨c, cs, rfl, h1 _ _ _ _ hr, h6 _ _ _ _ hcs⟩
      · cases h
      · cases h
    · intro p s ts rest h
      rw [runMore] at h
      split at h
      · rename_i c r hr
        split at h
        · cases h; exact .cons (h1 _ _ _ _ hr) .nil
        · obtain ⟨cs, hcs, rfl⟩ := PRes.map_ok h
          exact .cons (h1 _ _ _ _ hr) (h6 _ _ _ _ hcs)
      · cases h; exact .nil
      · cases h

@[simp] theorem PTree.rename_text (n : N) (t : PTree N) : (t.rename n).text = t.text := by cases t; rfl

mutual
theorem Derives.words : ∀ {p : Peg N} {t : PTree N}, Derives G p t → Words G p t.text
  | _, _, .lit l => .lit l
  | _, _, .rx h => .rx h
  | _, _, .ref (t := t) h => by rw [PTree.rename_text]; exact .ref h.words
  | _, _, .seq h => .seq h.words
  | _, _, .alt hp h => .alt hp h.words
  | _, _, .none => .none
  | _, _, .some h => .some h.words
  | _, _, .star h => .star h.words
  | _, _, .plus h1 h2 => by
    show Words G _ (texts (_ :: _))
    rw [texts_cons]
    exact .plus (.cons h1.words h2.words)
  | _, _, .not => .not
theorem DerivesSeq.words : ∀ {ps : List (Peg N)} {cs : List (PTree N)}, DerivesSeq G ps cs → WordsSeq G ps (texts cs)
  | _, _, .nil => .nil
  | _, _, .cons h1 h2 => by rw [texts_cons]; exact .cons h1.words h2.words
theorem DerivesStar.words : ∀ {p : Peg N} {cs : List (PTree N)}, DerivesStar G p cs → WordsStar G p (texts cs)
  | _, _, .nil => .nil
  | _, _, .cons h1 h2 => by rw [texts_cons]; exact .cons h1.words h2.words
end

@[simp] theorem words_lit {l w : Str} : Words G (.lit l) w ↔ w = l :=
  ⟨fun h => by cases h; rfl, fun h => h ▸ .lit _⟩
@[simp] theorem words_rx {r : RE} {w : Str} : Words G (.rx r) w ↔ r.Lang w := ⟨fun h => by cases h; assumption, .rx⟩
@[simp] theorem words_ref {n : N} {w : Str} : Words G (.ref n) w ↔ Words G (G n) w := ⟨fun h => by cases h; assumption, .ref⟩
@[simp] theorem words_seq {ps : List (Peg N)} {w : Str} : Words G (.seq ps) w ↔ WordsSeq G ps w :=
  ⟨fun h => by cases h; assumption, .seq⟩
@[simp] theorem words_alt {ps : List (Peg N)} {w : Str} : Words G (.alt ps) w ↔ ∃ p ∈ ps, Words G p w :=
  ⟨fun h => by cases h with | alt h1 h2 => exact ⟨_, h1, h2⟩, fun ⟨_, h1, h2⟩ => .alt h1 h2⟩
@[simp] theorem words_opt {p : Peg N} {w : Str} : Words G (.opt p) w ↔ w = [] ∨ Words G p w :=
  ⟨fun h => by cases h with | none => exact .inl rfl | some h => exact .inr h, fun h => h.elim (fun h => h ▸ .none) .some⟩
@[simp] theorem words_not {p : Peg N} {w : Str} : Words G (.not p) w ↔ w = [] :=
  ⟨fun h => by cases h; rfl, fun h => h ▸ .not⟩
@[simp] theorem wordsSeq_nil {w : Str} : WordsSeq G [] w ↔ w = [] := ⟨fun h => by cases h; rfl, fun h => h ▸ .nil⟩
@[simp] theorem wordsSeq_cons {p : Peg N} {ps : List (Peg N)} {w : Str} :
    WordsSeq G (p :: ps) w ↔ ∃ u, Words G p u ∧ ∃ v, WordsSeq G ps v ∧ w = u ++ v :=
  ⟨fun h => by cases h with | cons h1 h2 => exact ⟨_, h1, _, h2, rfl⟩, fun ⟨_, h1, _, h2, e⟩ => e ▸ .cons h1 h2⟩

end

/-! ### Texts of the nodes of Hypertag -/

/-- What is known about the text of a node. -/
def textOk (M : Marks) (U : Uni) : NT → Str → Prop
  | .name_id, w | .var_def, w => Ident w
  | .name_xml, w => KeyName U w
  | .symbol, w => MarkedName w
  | .margin, w | .margin_out, w => w ≠ [] ∧ Newlines w
  | .tag_use, w => ∃ n, w = '%' :: n ∧ Ident n
  | .var_use, w => Ident w ∨ ∃ n, w = '$' :: n ∧ Ident n
  | .line_verbat, w => w ≠ [] ∧ OneLine M w
  | .text, w => OneLine M w
  | .escape, w => w = s!!"$$" ∨ w = s!!"{{" ∨ w = s!!"}}"
  | .path_import, w => w ≠ []
  | _, _ => True

section
variable {M : Marks} {U : Uni}

theorem lang_word : ∀ {l w : Str}, (RE.word l).Lang w → w = l
  | [], _, h => h
  | c :: l, w, h => by
    obtain ⟨u, v, rfl, ⟨d, rfl, hd⟩, hv⟩ := h
    rw [lang_word hv]
    simp at hd
    simp [hd]

theorem lang_many1 {p : Char → Bool} {w : Str} (h : (RE.many1 p).Lang w) : w ≠ [] ∧ ∀ c ∈ w, p c = true := by
  obtain ⟨u, v, rfl, ⟨d, rfl, hd⟩, hv⟩ := h
  refine ⟨by simp, ?_⟩
  intro c hc
  rcases List.mem_cons.1 hc with rfl | hc
  · exact hd
  · exact hv c hc

theorem lang_name {w : Str} (h : reName.Lang w) : Ident w := by
  obtain ⟨u, v, rfl, ⟨d, rfl, hd⟩, hv⟩ := h
  exact ⟨d, v, rfl, hd, hv⟩

theorem lang_xml {w : Str} (h : (reXml U).Lang w) : KeyName U w := by
  obtain ⟨u, v, rfl, ⟨d, rfl, hd⟩, hv⟩ := h
  refine ⟨by simp, ?_⟩
  have hd' : xmlMid U d = true := by simp [xmlMid, xmlEnd, hd]
  rcases hv with ⟨a, b, rfl, ha, ⟨e, rfl, he⟩⟩ | rfl
  · intro c hc
    simp only [List.mem_append, List.mem_singleton] at hc
    rcases hc with rfl | hc | rfl
    · exact hd'
    · exact ha c hc
    · simp [xmlMid, he]
  · intro c hc
    simp at hc
    rw [hc]; exact hd'

theorem lang_nl {w : Str} (h : reNl.Lang w) : w ≠ [] ∧ Newlines w := by
  obtain ⟨h1, h2⟩ := lang_many1 h
  exact ⟨h1, fun c hc => by simpa using h2 c hc⟩

theorem lang_line {ex : List Char} {w : Str} (h : (reLine M ex).Lang w) : w ≠ [] ∧ OneLine M w := by
  obtain ⟨h1, h2⟩ := lang_many1 h
  refine ⟨h1, fun c hc => ?_⟩
  have := h2 c hc
  simp only [lineChar, Bool.not_eq_true', Bool.or_eq_false_iff, beq_eq_false_iff_ne] at this
  refine ⟨this.1.2, ?_⟩
  simp [isMark, this]

theorem words_textOk {n : NT} {w : Str} (h : Words (rule M U) (rule M U n) w) : textOk M U n w := by
  cases n <;> simp only [textOk] <;> simp [rule] at h
  case name_id => exact lang_name h
  case var_def => exact lang_name h
  case name_xml => exact lang_xml h
  case margin => exact lang_nl h
  case margin_out => exact lang_nl h
  case symbol =>
    rcases h with ⟨v, h, rfl⟩ | ⟨v, h, rfl⟩
    · exact ⟨_, v, rfl, .inl rfl, lang_name h⟩
    · exact ⟨_, v, rfl, .inr rfl, lang_name h⟩
  case tag_use =>
    obtain ⟨v, h, rfl⟩ := h
    exact ⟨v, rfl, lang_name h⟩
  case var_use =>
    rcases h with h | ⟨v, h, rfl⟩
    · exact .inl (lang_name h)
    · exact .inr ⟨v, rfl, lang_name h⟩
  case line_verbat => exact lang_line h
  case text => exact (lang_line h).2
  case escape =>
    rcases h with h | h | h
    · exact .inl (lang_word h)
    · exact .inr (.inl (lang_word h))
    · exact .inr (.inr (lang_word h))
  case path_import => exact (lang_many1 h).1

end
end Verif
