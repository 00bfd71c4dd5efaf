import Verif.Lemmas.RecodeLoad

/-! Other marks: which texts contain marks. -/

namespace Verif
open Py Spec

section
variable {M : Marks} {U : Uni}

/-- The expression matches no marks; references are followed `k` times. -/
def Markless (M : Marks) (U : Uni) : Nat → Peg NT → Prop
  | 0, _ => False
  | _ + 1, .lit l => ∀ c ∈ l, isMark M c = false
  | _ + 1, .rx r => r.Shuns M
  | k + 1, .ref n => Markless M U k (rule M U n)
  | k + 1, .seq ps => ∀ p ∈ ps, Markless M U k p
  | k + 1, .alt ps => ∀ p ∈ ps, Markless M U k p
  | k + 1, .opt p => Markless M U k p
  | k + 1, .star p => Markless M U k p
  | k + 1, .plus p => Markless M U k p
  | _ + 1, .not _ => True

mutual
theorem Derives.markless : ∀ {p : Peg NT} {t : PTree NT}, Derives (rule M U) p t → ∀ k, Markless M U k p →
    ∀ c ∈ t.text, isMark M c = false
  | _, _, .lit l, k + 1, h => h
  | _, _, .rx hw, k + 1, h => h.text hw
  | _, _, .ref hd, k + 1, h => by rw [PTree.rename_text]; exact Derives.markless hd k h
  | _, _, .seq hd, k + 1, h => DerivesSeq.markless hd k h
  | _, _, .alt hp hd, k + 1, h => by
    intro c hc
    exact Derives.markless hd k (h _ hp) c hc
  | _, _, .none, k + 1, h => by simp [PTree.text]
  | _, _, .some hd, k + 1, h => by
    intro c hc
    exact Derives.markless hd k h c hc
  | _, _, .star hd, k + 1, h => DerivesStar.markless hd k h
  | _, _, .plus hd hs, k + 1, h => by
    intro c hc
    simp only [PTree.text, texts_cons, List.mem_append] at hc
    rcases hc with hc | hc
    · exact Derives.markless hd k h c hc
    · exact DerivesStar.markless hs k h c hc
  | _, _, .not, k + 1, h => by simp [PTree.text]
theorem DerivesSeq.markless : ∀ {ps : List (Peg NT)} {ts : List (PTree NT)}, DerivesSeq (rule M U) ps ts → ∀ k,
    (∀ p ∈ ps, Markless M U k p) → ∀ c ∈ texts ts, isMark M c = false
  | _, _, .nil, _, _ => by simp
  | _, _, .cons hd hs, k, h => by
    intro c hc
    simp only [texts_cons, List.mem_append] at hc
    rcases hc with hc | hc
    · exact Derives.markless hd k (h _ List.mem_cons_self) c hc
    · exact DerivesSeq.markless hs k (fun p hp => h p (List.mem_cons_of_mem _ hp)) c hc
theorem DerivesStar.markless : ∀ {p : Peg NT} {ts : List (PTree NT)}, DerivesStar (rule M U) p ts → ∀ k,
    Markless M U k p → ∀ c ∈ texts ts, isMark M c = false
  | _, _, .nil, _, _ => by simp
  | _, _, .cons hd hs, k, h => by
    intro c hc
    simp only [texts_cons, List.mem_append] at hc
    rcases hc with hc | hc
    · exact Derives.markless hd k h c hc
    · exact DerivesStar.markless hs k h c hc
end

mutual
/-- Paths of imports are followed by spaces. -/
def tamePeg : Peg NT → Bool
  | .lit _ | .rx _ => true
  | .ref n => n != .path_import
  | .seq ps => tamePegs ps
  | .alt ps => tameAlts ps
  | .opt p => tamePeg p
  | .star p => tamePeg p
  | .plus p => tamePeg p
  | .not _ => true
def tamePegs : List (Peg NT) → Bool
  | [] => true
  | .ref .path_import :: .ref .space :: ps => tamePegs ps
  | p :: ps => tamePeg p && tamePegs ps
def tameAlts : List (Peg NT) → Bool
  | [] => true
  | p :: ps => tamePeg p && tameAlts ps
end

theorem rule_tame (n : NT) : tamePeg (rule M U n) = true := by cases n <;> rfl

theorem tameAlts_mem {ps : List (Peg NT)} {p : Peg NT} (h : tameAlts ps = true) (hp : p ∈ ps) : tamePeg p = true := by
  induction ps with
  | nil => cases hp
  | cons q ps ih =>
    simp only [tameAlts, Bool.and_eq_true] at h
    rcases List.mem_cons.1 hp with rfl | hp
    · exact h.1
    · exact ih h.2 hp

variable [hM : MarksApart M U]

include hM in
/-- All rules whose text matters, except for raw strings and paths. -/
theorem rule_markless (hsp : ∀ c, isMark M c = true → isSpace c = false) {n : NT} (h : usesText n = true)
    (h1 : n ≠ .string_raw) (h2 : n ≠ .path_import) : Markless M U 5 (rule M U n) := by
  have hl : ∀ {l : Str} {k : Nat}, l.all lowChar = true → Markless M U (k + 1) (.lit l) :=
    fun h c hc => low_not_mark U (List.all_eq_true.1 h c hc)
  have hname : ∀ {k : Nat}, Markless M U (k + 2) (rule M U .name_id) := by
    intro k p hp
    simp only [List.mem_cons, List.not_mem_nil, or_false] at hp
    rcases hp with rfl | rfl
    · trivial
    · exact reName_shuns U
  cases n <;> first | exact absurd h (by decide) | skip
  case tag_use =>
    intro p hp
    simp only [List.mem_cons, List.not_mem_nil, or_false] at hp
    rcases hp with rfl | rfl | rfl
    · exact hl (k := 2) rfl
    · exact hname (k := 1)
    · exact hl rfl
  case var_use =>
    intro p hp
    simp only [List.mem_cons, List.not_mem_nil, or_false] at hp
    rcases hp with rfl | rfl | rfl
    · exact hl (k := 1) rfl
    · exact hname (k := 1)
    · exact hl rfl
  case var_def =>
    intro p hp
    simp only [List.mem_cons, List.not_mem_nil, or_false] at hp
    rcases hp with rfl | rfl
    · exact hname (k := 1)
    · exact hl rfl
  case symbol =>
    intro p hp
    simp only [List.mem_cons, List.not_mem_nil, or_false] at hp
    rcases hp with rfl | rfl
    · intro p hp
      simp only [List.mem_cons, List.not_mem_nil, or_false] at hp
      rcases hp with rfl | rfl
      · exact hl (k := 1) rfl
      · exact hl (k := 1) rfl
    · exact hname (k := 1)
  case margin =>
    intro p hp
    simp only [List.mem_cons, List.not_mem_nil, or_false] at hp
    rcases hp with rfl | rfl
    · exact reNl_shuns U
    · exact hl rfl
  case margin_out =>
    intro p hp
    simp only [List.mem_cons, List.not_mem_nil, or_false] at hp
    rcases hp with rfl | rfl
    · exact reNl_shuns U
    · exact hl rfl
  case line_verbat =>
    intro p hp
    simp only [List.mem_cons, List.not_mem_nil, or_false] at hp
    rcases hp with rfl | rfl
    · exact reLine_shuns _
    · exact hl rfl
  case name_id => exact hname (k := 3)
  case qualifier => exact reQualifier_shuns U
  case op_comp => exact reComp_shuns U hsp
  case op_inplace => exact reInplace_shuns U
  case number => exact reNumber_shuns U
  case attr_short_lit => exact reShort_shuns U
  case name_xml => exact reXml_shuns U
  case text => exact reLine_shuns _
  case text_quot1 => exact reLine_shuns _
  case text_quot2 => exact reLine_shuns _
  case escape => exact reEscape_shuns U
  case string_raw => exact absurd rfl h1
  case path_import => exact absurd rfl h2
  case op_power => exact hl rfl
  case dedent => exact hl rfl
  case append => exact hl rfl
  all_goals
    intro p hp
    simp only [List.mem_cons, List.not_mem_nil, or_false] at hp
    rcases hp with hp | hp | hp | hp <;> first | (subst hp; exact hl rfl) | exact hl rfl

/-- The text of a raw string, in an encoded text. -/
theorem raw_markless {flat : Str} (hS : Shape M flat) {q : Char} (hq : q = '\'' ∨ q = '"')
    (hl : ∀ c ∈ (['r', q] : Str), isMark M c = false) {w : Str}
    (hw : (reRaw q).Lang w) (hin : w <:+: flat) : ∀ c ∈ w, isMark M c = false := by
  obtain ⟨u, v, rfl, h1, v1, v2, rfl, h2, ⟨d, rfl, hd⟩⟩ := hw
  cases lang_word h1
  cases beq_iff_eq.1 hd
  obtain ⟨pre, post, rfl⟩ := hin
  obtain ⟨x, y, he, hx⟩ := hS.raw q (v1 ++ q :: post) hq ⟨pre, by simp⟩
  have h3 : ∀ c ∈ v1, c ≠ q := fun c hc => by simpa using h2 c hc
  clear h2
  have : v1 = x := by
    have hx' : ∀ c ∈ x, c ≠ q := fun c hc => (hx c hc).1
    clear hx hS h1 hd hl
    induction v1 generalizing x with
    | nil =>
      cases x with
      | nil => rfl
      | cons e x =>
        simp only [List.nil_append, List.cons_append, List.cons.injEq] at he
        exact absurd he.1.symm (hx' e List.mem_cons_self)
    | cons a v1 ih =>
      cases x with
      | nil =>
        simp only [List.nil_append, List.cons_append, List.cons.injEq] at he
        exact absurd he.1 (h3 a List.mem_cons_self)
      | cons e x =>
        simp only [List.cons_append, List.cons.injEq] at he
        rw [he.1, ih (x := x) he.2 (fun c hc => h3 c (List.mem_cons_of_mem _ hc)) (fun c hc => hx' c (List.mem_cons_of_mem _ hc))]
  subst this
  intro c hc
  simp only [List.mem_append, List.mem_singleton] at hc
  rcases hc with hc | hc | rfl
  · exact hl c hc
  · exact (hx c hc).2
  · exact hl c (by simp)

/-- The text of a path, before a blank. -/
theorem path_markless {flat : Str} (hS : Shape M flat) {w rest : Str} (hw : ∀ c ∈ w, c ≠ '\n') {b : Char}
    (hb : isMark M b = false ∧ b ≠ '\n') (hin : w ++ b :: rest <:+: flat) : ∀ c ∈ w, isMark M c = false := by
  induction w with
  | nil => simp
  | cons c w ih =>
    obtain ⟨pre, post, hflat⟩ := hin
    have ih := ih (fun d hd => hw d (List.mem_cons_of_mem _ hd)) ⟨pre ++ [c], post, by rw [← hflat]; simp⟩
    intro d hd
    rcases List.mem_cons.1 hd with rfl | hd
    · cases hm : isMark M d with
      | false => rfl
      | true =>
        exfalso
        rcases hS.marks d (w ++ b :: rest ++ post) ⟨pre, by rw [← hflat]; simp⟩ hm with h | ⟨e, v, h, he⟩
        · simp at h
        · cases w with
          | nil =>
            simp only [List.nil_append, List.cons_append, List.cons.injEq] at h
            rw [← h.1] at he
            rcases he with he | he
            · rw [hb.1] at he; cases he
            · exact hb.2 he
          | cons e' w =>
            simp only [List.cons_append, List.cons.injEq] at h
            rw [← h.1] at he
            rcases he with he | he
            · rw [ih e' List.mem_cons_self] at he; cases he
            · exact hw e' (by simp) he
    · exact ih d hd

theorem PClean.rename {n : NT} {t : PTree NT} (h : PClean M t) (hn : usesText n = true → ∀ c ∈ t.text, isMark M c = false) :
    PClean M (t.rename n) := by
  cases h with
  | node h1 h2 => exact .node (fun m hm hu => by cases hm; exact hn hu) h2

theorem infix_left {a b s : Str} (h : a ++ b <:+: s) : a <:+: s := by
  obtain ⟨p, q, rfl⟩ := h
  exact ⟨p, b ++ q, by simp⟩

theorem infix_right {a b s : Str} (h : a ++ b <:+: s) : b <:+: s := by
  obtain ⟨p, q, rfl⟩ := h
  exact ⟨p ++ a, q, by simp⟩

omit hM in
theorem derives_space {t : PTree NT} (h : Derives (rule M U) (.ref .space) t) : ∃ b w, t.text = b :: w ∧ isBlank b = true := by
  cases h with
  | ref h =>
    rw [PTree.rename_text]
    cases h with
    | rx hw =>
      obtain ⟨u, v, rfl, ⟨c, rfl, hc⟩, -⟩ := hw
      exact ⟨c, v, rfl, hc⟩

omit hM in
theorem derives_path {t : PTree NT} (h : Derives (rule M U) (.ref .path_import) t) :
    ∃ w, t = .node (some .path_import) w [] ∧ ∀ c ∈ w, c ≠ '\n' := by
  cases h with
  | ref h =>
    cases h with
    | rx hw =>
      rename_i w
      refine ⟨w, rfl, ?_⟩
      obtain ⟨u, v, rfl, ⟨c, rfl, hc⟩, hv⟩ := hw
      intro d hd
      rintro rfl
      rcases List.mem_cons.1 hd with rfl | hd
      · revert hc; decide
      · have := hv _ hd
        revert this; decide

set_option linter.unusedSectionVars false in
mutual
theorem Derives.clean (hsp : ∀ c, isMark M c = true → isSpace c = false) {flat : Str} (hS : Shape M flat) :
    ∀ {p : Peg NT} {t : PTree NT}, Derives (rule M U) p t → tamePeg p = true → t.text <:+: flat → PClean M t
  | _, _, .lit l, _, _ => .node (fun _ h => by cases h) (by simp)
  | _, _, .rx _, _, _ => .node (fun _ h => by cases h) (by simp)
  | _, _, .none, _, _ => .node (fun _ h => by cases h) (by simp)
  | _, _, .not, _, _ => .node (fun _ h => by cases h) (by simp)
  | _, _, .ref (n := n) (t := t) hd, hp, hin => by
    rw [PTree.rename_text] at hin
    refine (Derives.clean hsp hS hd (rule_tame n) hin).rename (fun hu => ?_)
    by_cases h2 : n = .path_import
    · subst h2; cases hp
    by_cases h1 : n = .string_raw
    · subst h1
      have hl : ∀ q, q = '\'' ∨ q = '"' → ∀ c ∈ (['r', q] : Str), isMark M c = false := by
        intro q hq c hc
        refine low_not_mark U ?_
        simp only [List.mem_cons, List.not_mem_nil, or_false] at hc
        rcases hc with rfl | rfl
        · rfl
        · rcases hq with rfl | rfl <;> rfl
      cases hd with
      | alt hmem hd =>
        simp only [List.mem_cons, List.not_mem_nil, or_false] at hmem
        rcases hmem with rfl | rfl
        · cases hd with
          | rx hw => exact raw_markless hS (.inl rfl) (hl _ (.inl rfl)) hw hin
        · cases hd with
          | rx hw => exact raw_markless hS (.inr rfl) (hl _ (.inr rfl)) hw hin
    · exact hd.markless 5 (rule_markless hsp hu h1 h2)
  | _, _, .seq hd, hp, hin => .node (fun _ h => by cases h) (DerivesSeq.clean hsp hS hd hp hin)
  | _, _, .alt hmem hd, hp, hin => .node (fun _ h => by cases h) (fun t ht => by
      cases List.mem_singleton.1 ht
      exact Derives.clean hsp hS hd (tameAlts_mem hp hmem) hin)
  | _, _, .some hd, hp, hin => .node (fun _ h => by cases h) (fun t ht => by
      cases List.mem_singleton.1 ht
      exact Derives.clean hsp hS hd hp hin)
  | _, _, .star hd, hp, hin => .node (fun _ h => by cases h) (DerivesStar.clean hsp hS hd hp hin)
  | _, _, .plus hd hs, hp, hin => .node (fun _ h => by cases h) (fun t ht => by
      simp only [PTree.text, texts_cons] at hin
      rcases List.mem_cons.1 ht with h | h
      · rw [h]
        exact Derives.clean hsp hS hd hp (infix_left hin)
      · exact DerivesStar.clean hsp hS hs hp (infix_right hin) t h)
theorem DerivesSeq.clean (hsp : ∀ c, isMark M c = true → isSpace c = false) {flat : Str} (hS : Shape M flat) :
    ∀ {ps : List (Peg NT)} {ts : List (PTree NT)}, DerivesSeq (rule M U) ps ts → tamePegs ps = true → texts ts <:+: flat →
    ∀ t ∈ ts, PClean M t
  | _, _, .nil, _, _ => by simp
  | _, _, .cons (p := p) (ps := ps) (c := c) (cs := cs) hd hs, hp, hin => by
    simp only [texts_cons] at hin
    have key : tamePeg p = true ∧ tamePegs ps = true ∨ p = .ref .path_import ∧ ∃ qs, ps = .ref .space :: qs ∧ tamePegs ps = true := by
      unfold tamePegs at hp
      split at hp
      · next h => cases h
      · next h =>
        cases h
        exact .inr ⟨rfl, _, rfl, by simp [tamePegs, tamePeg, hp]⟩
      · next h =>
        cases h
        simp only [Bool.and_eq_true] at hp
        exact .inl hp
    intro t ht
    rcases List.mem_cons.1 ht with h | h
    · rw [h]
      rcases key with key | ⟨rfl, qs, rfl, -⟩
      · exact Derives.clean hsp hS hd key.1 (infix_left hin)
      · obtain ⟨w, rfl, hw⟩ := derives_path hd
        cases hs with
        | cons hb hs =>
          rename_i c' cs'
          obtain ⟨b, v, hbv, hb⟩ := derives_space hb
          rw [texts_cons, hbv] at hin
          have hb' : isMark M b = false ∧ b ≠ '\n' := by
            simp only [isBlank, Bool.or_eq_true, beq_iff_eq] at hb
            rcases hb with rfl | rfl
            · exact ⟨low_not_mark U rfl, by decide⟩
            · exact ⟨low_not_mark U rfl, by decide⟩
          exact .node (fun m hm _ => path_markless hS hw hb' (rest := v ++ texts cs') (by simpa [PTree.text] using hin)) (by simp)
    · refine DerivesSeq.clean hsp hS hs ?_ (infix_right hin) t h
      rcases key with key | ⟨-, qs, -, key⟩
      · exact key.2
      · exact key
theorem DerivesStar.clean (hsp : ∀ c, isMark M c = true → isSpace c = false) {flat : Str} (hS : Shape M flat) :
    ∀ {p : Peg NT} {ts : List (PTree NT)}, DerivesStar (rule M U) p ts → tamePeg p = true → texts ts <:+: flat →
    ∀ t ∈ ts, PClean M t
  | _, _, .nil, _, _ => by simp
  | _, _, .cons hd hs, hp, hin => by
    simp only [texts_cons] at hin
    intro t ht
    rcases List.mem_cons.1 ht with h | h
    · rw [h]
      exact Derives.clean hsp hS hd hp (infix_left hin)
    · exact DerivesStar.clean hsp hS hs hp (infix_right hin) t h
end

end
end Verif
