import Verif.Lemmas.Definitions

/-! Blocks, lists of blocks and documents. -/

set_option linter.unusedSectionVars false

namespace Verif
open Py Spec

section
variable {M : Marks} {U : Uni} {P : Type} {names : Str → Option Char} {full : Str} {k : Nat}

local notation "Bd" => Builds M U P names full
local notation "Bq" => BuildsSeq M U P names full
local notation "Bs" => BuildsStar M U P names full
local notation "Bm" => Many M U P names full
local notation "Fl" => Fails (rule M U)
local notation "Fq" => FailsSeq (rule M U)

variable [hM : MarksApart M U]

/-! The beginning of a block -/

omit hM in
theorem kw_name {kw n s : Str} (hk : ∀ c ∈ kw, nameChar c = true) (hs : NameEnd s) (h : ¬ kw <+: n) : Fl (.lit kw) (n ++ s) := by
  refine .lit ?_
  by_contra hp
  simp only [Bool.not_eq_false, List.isPrefixOf_iff_prefix] at hp
  obtain ⟨r, hr⟩ := hp
  rcases List.append_eq_append_iff.mp hr with ⟨u, hu, _⟩ | ⟨u, hu, h'⟩
  · exact h ⟨u, hu.symm⟩
  · cases u with
    | nil => simp at hu; exact h (hu ▸ List.prefix_refl _)
    | cons c u =>
      have := hs c (by rw [h']; rfl)
      rw [hk c (by simp [hu])] at this
      cases this

omit hM in
theorem nameChar_notBlank {c : Char} (h : nameChar c = true) : isBlank c = false := by
  by_contra hb
  simp only [Bool.not_eq_false, isBlank, Bool.or_eq_true, beq_iff_eq] at hb
  rcases hb with rfl | rfl <;> cases h

omit hM in
theorem kw_space {kw n s : Str} {ps : List (Peg NT)} (hn : ∀ c ∈ n, nameChar c = true) (hk : ∀ c ∈ kw, nameChar c = true) (hs : NameEnd s)
    (h : n ≠ kw) : Fq (.lit kw :: .ref .space :: ps) (n ++ s) := by
  by_cases hp : kw <+: n
  · obtain ⟨u, rfl⟩ := hp
    cases u with
    | nil => simp at h
    | cons c u =>
      rw [List.append_assoc]
      refine .after (x := kw) (eats_lit _ _) (.head (.space ?_))
      intro d hd
      cases hd
      exact nameChar_notBlank (hn c (by simp))
  · exact .head (kw_name hk hs hp)

/-- What the text of a block is not. -/
structure Starts (M : Marks) (U : Uni) (s : Str) : Prop where
  noBlank : NoBlank s
  noNl : s.head? ≠ some '\n'
  noElse : Fails (rule M U) (.lit (s!!"else")) s
  noElif : FailsSeq (rule M U) [.lit (s!!"elif"), .ref .clause_if] s
  noMod : Fails (rule M U) (.ref .modifier) s

omit hM in
theorem Starts.char {c : Char} {s : Str} (h : (s!!"e<.\n \t").elem c = false := by rfl) : Starts M U (c :: s) := by
  simp only [List.elem_eq_mem, List.mem_cons, List.not_mem_nil, or_false, decide_eq_false_iff_not, not_or] at h
  obtain ⟨h1, h2, h3, h4, h5, h6⟩ := h
  refine ⟨.cons ?_, by simpa using h4, .lit1 (by simpa using h1), .head (.lit1 (by simpa using h1)), ?_⟩
  · simp [isBlank, h5, h6]
  · exact .ref (.alt (.cons (.ref (.lit1 (by simpa using h2))) (.cons (.ref (.lit1 (by simpa using h3))) (.nil _))))

omit hM in
theorem Starts.name {n s : Str} (hn : TagName n) (hs : NameEnd s) : Starts M U (n ++ s) := by
  obtain ⟨c, u, rfl, hc, hc'⟩ := hn.start
  have hne : ∀ d, nameStart d = false → c ≠ d := by
    rintro d hd rfl
    rw [hd] at hc
    cases hc
  refine ⟨name_noBlank hn.toName, ?_, kw_name (by decide) hs hn.notElse, ?_, ?_⟩
  · simpa using hne '\n' rfl
  · by_cases hp : s!!"elif" <+: c :: u
    · obtain ⟨v, hv⟩ := hp
      rw [← hv]
      cases v with
      | nil =>
        exact absurd (by rw [← hv]; decide) hn.notReserved
      | cons d v =>
        rw [List.append_assoc]
        refine .after (x := s!!"elif") (eats_lit _ _) (.head (.ref (.seq1 (.space ?_))))
        intro e he
        cases he
        exact nameChar_notBlank (hn.chars d (by rw [← hv]; simp))
    · exact .head (kw_name (by decide) hs hp)
  · exact .ref (.alt (.cons (.ref (.lit1 (by simpa using hne '<' rfl))) (.cons (.ref (.lit1 (by simpa using hne '.' rfl))) (.nil _))))

omit hM in
theorem tag_name {t : Str} {x : TagExp} {b : Bool} (h : Spec.Tag M names t x b) : ∃ n u, t = n ++ u ∧ TagName n ∧ NameEnd u := by
  cases h with
  | @tag n t t' ss xs us ns b hn hs ha he =>
    refine ⟨n, t ++ t', rfl, hn, ?_⟩
    rcases shorts_next hs with rfl | ⟨c, s, rfl, hc⟩
    · by_cases hne : t' = []
      · subst hne; intro c hc; cases hc
      · obtain ⟨_, w, u, rfl, hw, hwn, _⟩ := attrs_blank ha hne
        simpa using blanks_nameEnd (s := u) hw hwn
    · intro d hd
      cases hd
      rcases hc with rfl | rfl <;> rfl

omit hM in
theorem tags_name {t : Str} {xs : List TagExp} {b : Bool} (h : Tags M names t xs b) : ∃ n u, t = n ++ u ∧ TagName n ∧ NameEnd u := by
  cases h with
  | one h => exact tag_name h
  | @cons t w1 w2 t' x b b' xs h hw1 hw2 _ _ =>
    obtain ⟨n, u, rfl, hn, hu⟩ := tag_name h
    refine ⟨n, u ++ (w1 ++ (':' :: (w2 ++ t'))), by simp, hn, ?_⟩
    refine head_append hu ?_
    cases w1 with
    | nil => intro c hc; cases hc; rfl
    | cons d w1 => exact blanks_nameEnd hw1 (by simp)

include hM in
variable (U) in
theorem BodyStart.nameEnd {t s : Str} (h : BodyStart M t s) : NameEnd s := by
  exact (BodyStart.defEnd (U := U) (b := false) h (fun _ => rfl)).nameEnd

include hM in
variable (U) in
theorem BodyStart.noPoint {t s : Str} (h : BodyStart M t s) : s.head? ≠ some '.' := by
  have blank : ∀ (w : Str) (c : Char) (u : Str), Blanks w → c ≠ '.' → (w ++ c :: u).head? ≠ some '.' := by
    intro w c u hw hc
    cases w with
    | nil => simpa using hc
    | cons d w =>
      rcases hw d (by simp) with rfl | rfl <;> simp
  cases h with
  | text hw hc _ =>
    refine blank _ _ _ hw ?_
    rintro rfl
    cases hc
  | eol h =>
    intro hs
    exact (h _ hs).ne U (a := '.') (by decide) rfl
  | hash hw _ _ => exact blank _ _ _ hw (by decide)
  | dashes hw _ => exact blank _ _ _ hw (by decide)
  | colon hw _ _ _ _ => exact blank _ _ _ hw (by decide)

theorem Starts.null {t s : Str} (h : BodyStart M t s) : Starts M U ('.' :: s) := by
  refine ⟨.cons rfl, by simp, .first 200 rfl, .first 200 rfl, ?_⟩
  refine .ref (.alt (.cons (.first 200 rfl) (.cons (.ref (.lit ?_)) (.nil _))))
  have := BodyStart.noPoint U h
  cases s with
  | nil => rfl
  | cons c s =>
    have hc : '.' ≠ c := by rintro rfl; simp at this
    simp [List.isPrefixOf, hc]

theorem text_starts {c : Nat} {t : Str} {is : List Item} {s : Stmt P} (h : TextBlock M names c t is s) (u : Str) : Starts M U (t ++ u) := by
  obtain ⟨d, v, rfl, hd⟩ := text_start h
  simp only [List.elem_eq_mem, List.mem_cons, List.not_mem_nil, or_false, decide_eq_true_eq] at hd
  rcases hd with rfl | rfl | rfl | rfl <;> exact .char

theorem struct_starts {c : Nat} {t : Str} {is : List Item} {s : Stmt P} {rest : Str} (h : StructBlock M names k c t is s) (hr : Eol M rest) :
    Starts M U (t ++ (itemsFlat M is ++ rest)) := by
  cases h with
  | text h => exact text_starts h _
  | @tags _ _ t t' ts f is b h h1 h2 hb =>
    obtain ⟨n, u, rfl, hn, hu⟩ := tags_name h
    have := structBody_start U hb hr
    have := Starts.name (M := M) (U := U) hn (head_append hu (BodyStart.nameEnd U this))
    simpa using this
  | null hb => exact .null (structBody_start U hb hr)

include hM in
variable (U) in
theorem struct_noBlank {c : Nat} {t : Str} {is : List Item} {s : Stmt P} (h : StructBlock M names k c t is s) (u : Str) : NoBlank (t ++ u) := by
  cases h with
  | text h => exact (text_starts (U := U) h u).noBlank
  | @tags _ _ t t' ts f is b h h1 h2 hb =>
    obtain ⟨n, u, rfl, hn, hu⟩ := tags_name h
    rw [List.append_assoc, List.append_assoc]
    exact name_noBlank hn.toName
  | null hb => exact .cons rfl

theorem block_starts {c : Nat} {t : Str} {is : List Item} {s : Stmt P} {rest : Str} (h : Block M names k c t is s) (hr : Eol M rest) :
    Starts M U (t ++ (itemsFlat M is ++ rest)) := by
  cases h with
  | struct h => exact struct_starts h hr
  | comment hm => rcases hm with rfl | rfl <;> exact .char
  | _ => exact .char

/-! One block -/

/-- The alternatives of a block. -/
def blockPeg : Peg NT :=
  .alt [.ref .block_control, .ref .block_def, .ref .block_context, .ref .block_import, .ref .block_struct,
    .ref .block_comment, .ref .special_tag]

/-- The text is not taken for a block of the kinds that are tried first. -/
structure NotFirst (M : Marks) (U : Uni) (s : Str) : Prop where
  control : Fails (rule M U) (.ref .block_control) s
  define : Fails (rule M U) (.ref .block_def) s
  context : Fails (rule M U) (.ref .block_context) s
  imports : Fails (rule M U) (.ref .block_import) s

omit hM in
theorem NotFirst.name {n s : Str} (hn : TagName n) (hs : NameEnd s) : NotFirst M U (n ++ s) := by
  obtain ⟨c, u, hcu, hc, hc'⟩ := hn.start
  have hne : ∀ d, nameStart d = false → c ≠ d := by
    rintro d hd rfl
    rw [hd] at hc
    cases hc
  have hl : ∀ d l, nameStart d = false → Fl (.lit (d :: l)) (n ++ s) := by
    intro d l hd
    rw [hcu]
    exact .lit1 (by simpa using hne d hd)
  have hk : ∀ kw ps, kw ∈ reservedNames → Fq (.lit kw :: .ref .space :: ps) (n ++ s) := by
    intro kw ps hk
    exact kw_space hn.chars (reserved_chars kw hk).2 hs (by rintro rfl; exact hn.notReserved hk)
  have hc : ∀ kw ps, kw ∈ reservedNames → Fq (.lit kw :: .ref .clause_if :: ps) (n ++ s) := by
    intro kw ps hk
    by_cases hp : kw <+: n
    · obtain ⟨v, hv⟩ := hp
      cases v with
      | nil => exact absurd (by rw [← hv]; simpa using hk) hn.notReserved
      | cons d v =>
        rw [← hv, List.append_assoc]
        refine .after (x := kw) (eats_lit _ _) (.head (.ref (.seq1 (.space ?_))))
        intro e he
        cases he
        exact nameChar_notBlank (hn.chars d (by rw [← hv]; simp))
    · exact .head (kw_name (reserved_chars kw hk).2 hs hp)
  constructor
  · refine .ref (.alt (.cons ?_ (.cons ?_ (.cons ?_ (.cons ?_ (.cons ?_ (.cons ?_ (.nil _))))))))
    · exact .ref (.seq1 (.ref (hl '$' [] rfl)))
    · exact .ref (.seq1 (.ref (hl '$' [] rfl)))
    · exact .ref (.seq (hc (s!!"if") _ (by decide)))
    · refine .ref (.alt (.cons ?_ (.cons ?_ (.nil _))))
      · exact .ref (.seq1 (kw_name (by decide) hs hn.notTry))
      · exact .ref (.seq1 (hl '?' [] rfl))
    · exact .ref (.seq (hk (s!!"for") _ (by decide)))
    · exact .ref (.seq (hc (s!!"while") _ (by decide)))
  · exact .ref (.seq1 (.ref (hl '%' [] rfl)))
  · exact .ref (.seq (kw_space hn.chars (by decide) hs hn.notContext))
  · exact .ref (.seq (hk (s!!"from") _ (by decide)))

theorem struct_first {c : Nat} {t : Str} {is : List Item} {s : Stmt P} {rest : Str} (h : StructBlock M names k c t is s) (hr : Eol M rest) :
    NotFirst M U (t ++ (itemsFlat M is ++ rest)) := by
  cases h with
  | text h =>
    obtain ⟨d, v, rfl, hd⟩ := text_start h
    simp only [List.elem_eq_mem, List.mem_cons, List.not_mem_nil, or_false, decide_eq_true_eq] at hd
    rcases hd with rfl | rfl | rfl | rfl <;> exact ⟨.first 200 rfl, .first 200 rfl, .first 200 rfl, .first 200 rfl⟩
  | @tags _ _ t t' ts f is b h h1 h2 hb =>
    obtain ⟨n, u, rfl, hn, hu⟩ := tags_name h
    have := structBody_start U hb hr
    have := NotFirst.name (M := M) (U := U) hn (head_append hu (BodyStart.nameEnd U this))
    simpa using this
  | null hb => exact ⟨.first 200 rfl, .first 200 rfl, .first 200 rfl, .first 200 rfl⟩

theorem nested_flat {is : List Item} {rest : Str} {t : Str} : t ++ itemsFlat M is ++ rest = t ++ (itemsFlat M is ++ rest) := by simp

theorem block_struct {c : Nat} {t : Str} {is : List Item} {s : Stmt P} (h : StructBlock M names k c t is s)
    (hr : ReadsBody M U P names full .block_struct k c t is s) : ReadsBlock M U P names full blockPeg k c t is s := by
  intro h1 h2 rest h3 h4
  obtain ⟨f1, f2, f3, f4⟩ := struct_first (U := U) h h3.shut.eol
  rw [← List.append_assoc] at f1 f2 f3 f4
  exact .alt (.there f1 (.there f2 (.there f3 (.there f4 (.here (hr h1 h2 rest h3.shut h4))))))

theorem block_comment {c : Nat} {t : Str} {is : List Item} {mark : Str} {xs : List TextItem} (hm : mark = ['#'] ∨ mark = ['-', '-'])
    (ht : ∀ c ∈ t, TextChar M c) (h : TextTail M names .verbat is xs) :
    ReadsBlock M U P names full blockPeg k c (mark ++ t) is .comment := by
  intro h1 h2 rest h3 h4
  have := reads_comment (U := U) (P := P) (names := names) (full := full) (k := k) hm ht h h3.shut
  rw [← List.append_assoc] at this
  rcases hm with rfl | rfl <;>
  exact .alt (.there (.first 200 rfl) (.there (.first 200 rfl) (.there (.first 200 rfl) (.there (.first 200 rfl)
    (.there (.first 200 rfl) (.here this))))))

theorem block_pass {c : Nat} : ReadsBlock M U P names full blockPeg k c (s!!"pass") [] .pass := by
  intro h1 h2 rest h3 h4
  have hn : Fl (.ref .name_id) (s!!"pass" ++ rest) := by
    cases rest with
    | nil => exact .name_reserved (c := ' ') (by decide) (by rfl) (.inr rfl)
    | cons d rest => exact .name_reserved (c := d) (by decide) ((h3.shut.eol d rfl).notWord) (.inl rfl)
  have hs : Fl (.ref .block_struct) (s!!"pass" ++ rest) := by
    refine .ref (.alt (.cons (.seq1 (.ref (.alt (.cons (.first 200 rfl) (.cons (.seq1 (.ref (.seq1 hn))) (.nil _)))))) (.cons (.first 200 rfl) (.nil _))))
  have hp : Bd k (.ref .special_tag) (s!!"pass") rest [.stmt .pass] :=
    .reduced rfl (.ofSeq (.step (.plain (n := .pass) (bs := []) (.lit _ _) rfl) (.step (.lit _ _) (.nil _))))
  exact .alt (.there (.first 200 rfl) (.there (.first 200 rfl) (.there (.first 200 rfl) (.there (.first 200 rfl)
    (.there hs (.there (.first 200 rfl) (.here hp)))))))

theorem block_control {c : Nat} {t : Str} {is : List Item} {s : Stmt P} (h : ReadsBlock M U P names full (.ref .block_control) k c t is s) :
    ReadsBlock M U P names full blockPeg k c t is s :=
  fun h1 h2 rest h3 h4 => .alt (.here (h h1 h2 rest h3 h4))

theorem block_if {c : Nat} {t : Str} {is : List Item} {s : Stmt P} (h : ReadsBlock M U P names full (.ref .block_if) k c (s!!"if" ++ t) is s) :
    ReadsBlock M U P names full blockPeg k c (s!!"if" ++ t) is s :=
  fun h1 h2 rest h3 h4 => .alt (.here (.reduced rfl (.alt (.there (.first 200 rfl) (.there (.first 200 rfl) (.here (h h1 h2 rest h3 h4)))))))

theorem block_try {c : Nat} {t : Str} {is : List Item} {s : Stmt P} (h : ReadsBlock M U P names full (.ref .block_try) k c (s!!"try" ++ t) is s) :
    ReadsBlock M U P names full blockPeg k c (s!!"try" ++ t) is s :=
  fun h1 h2 rest h3 h4 => .alt (.here (.reduced rfl (.alt (.there (.first 200 rfl) (.there (.first 200 rfl) (.there (.first 200 rfl)
    (.here (h h1 h2 rest h3 h4))))))))

theorem block_optional {c : Nat} {t : Str} {is : List Item} {s : Stmt P} (h : ReadsBlock M U P names full (.ref .block_try) k c ('?' :: t) is s) :
    ReadsBlock M U P names full blockPeg k c ('?' :: t) is s :=
  fun h1 h2 rest h3 h4 => .alt (.here (.reduced rfl (.alt (.there (.first 200 rfl) (.there (.first 200 rfl) (.there (.first 200 rfl)
    (.here (h h1 h2 rest h3 h4))))))))

theorem block_for {c : Nat} {t : Str} {is : List Item} {s : Stmt P} (h : ReadsBlock M U P names full (.ref .block_for) k c (s!!"for" ++ t) is s) :
    ReadsBlock M U P names full blockPeg k c (s!!"for" ++ t) is s :=
  fun h1 h2 rest h3 h4 => .alt (.here (.reduced rfl (.alt (.there (.first 200 rfl) (.there (.first 200 rfl) (.there (.first 200 rfl)
    (.there (.first 200 rfl) (.here (h h1 h2 rest h3 h4)))))))))

theorem block_while {c : Nat} {t : Str} {is : List Item} {s : Stmt P} (h : ReadsBlock M U P names full (.ref .block_while) k c (s!!"while" ++ t) is s) :
    ReadsBlock M U P names full blockPeg k c (s!!"while" ++ t) is s :=
  fun h1 h2 rest h3 h4 => .alt (.here (.reduced rfl (.alt (.there (.first 200 rfl) (.there (.first 200 rfl) (.there (.first 200 rfl)
    (.there (.first 200 rfl) (.there (.first 200 rfl) (.here (h h1 h2 rest h3 h4))))))))))

theorem block_define {c : Nat} {t : Str} {is : List Item} {s : Stmt P} (h : ReadsBody M U P names full .block_def k c ('%' :: t) is s) :
    ReadsBlock M U P names full blockPeg k c ('%' :: t) is s :=
  fun h1 h2 rest h3 h4 => .alt (.there (.first 200 rfl) (.here (h h1 h2 rest h3.shut h4)))

omit hM in
theorem single {p : Peg NT} {c : Nat} {t : Str} {s : Stmt P} (h : ∀ rest, Eol M rest → Bd k p t rest [.stmt s]) :
    ReadsBlock M U P names full p k c t [] s := by
  intro h1 h2 rest h3 h4
  have := h rest h3.shut.eol
  simpa [itemsFlat] using this

theorem block_imports {c : Nat} {t : Str} {is : List Item} {s : Stmt P} (h : ReadsBlock M U P names full (.ref .block_import) k c (s!!"from" ++ t) is s) :
    ReadsBlock M U P names full blockPeg k c (s!!"from" ++ t) is s := by
  intro h1 h2 rest h3 h4
  have hf : Fl (.ref .block_for) (s!!"from" ++ t ++ itemsFlat M is ++ rest) := .ref (.seq1 (.lit rfl))
  have hc : Fl (.ref .block_control) (s!!"from" ++ t ++ itemsFlat M is ++ rest) :=
    .ref (.alt (.cons (.first 200 rfl) (.cons (.first 200 rfl) (.cons (.first 200 rfl) (.cons (.first 200 rfl) (.cons hf
      (.cons (.first 200 rfl) (.nil _))))))))
  exact .alt (.there hc (.there (.first 200 rfl) (.there (.first 200 rfl) (.here (h h1 h2 rest h3 h4)))))

theorem block_context {c : Nat} {t : Str} {is : List Item} {s : Stmt P} (h : ReadsBlock M U P names full (.ref .block_context) k c (s!!"context" ++ t) is s) :
    ReadsBlock M U P names full blockPeg k c (s!!"context" ++ t) is s := by
  intro h1 h2 rest h3 h4
  exact .alt (.there (.first 200 rfl) (.there (.first 200 rfl) (.here (h h1 h2 rest h3 h4))))

/-! Lists of blocks -/

theorem builds_marginOut {m : Nat} {rest : Str} (h : rest.head? ≠ some '\n') :
    Bd k (.ref .margin_out) ('\n' :: List.replicate m '\n') rest [.str .margin_out (List.replicate m '\n')] := by
  refine .plain (n := .margin_out) (bs := []) (.ofSeq (.step (x := '\n' :: List.replicate m '\n') (y := []) (builds_nl h) (.step (.lit _ _) (.nil _)))) ?_
  have : ('\n' :: List.replicate m '\n').dropLast = List.replicate m '\n' := by
    rw [← List.replicate_succ, List.dropLast_replicate]; rfl
  show Except.ok (Built.str .margin_out _) = _
  rw [this]

theorem builds_block {m : Nat} {x rest : Str} {s : Stmt P} (hs : Starts M U (x ++ rest)) (h : Bd (k + 1 + m) blockPeg x rest [.stmt s]) :
    Bd k (.ref .block) ('\n' :: (List.replicate m '\n' ++ x)) rest [.stmt (.xblock (List.replicate m '\n') none s)] := by
  refine .plain (n := .block) (bs := [.str .margin_out (List.replicate m '\n'), .stmt s]) ?_ rfl
  have h0 : Bd k (.ref .margin_out) ('\n' :: List.replicate m '\n') (x ++ rest) [.str .margin_out (List.replicate m '\n')] :=
    builds_marginOut hs.noNl
  exact .ofSeq (.step h0 (.step (x := []) (.opt_none (.seq1 hs.noMod)) (.step (h.at (by simp; omega)) (.nil _))))

theorem builds_dedent {m : Nat} {w x rest : Str} {s : Stmt P} (hw : Blanks w) (hs : Starts M U (x ++ rest))
    (h : Bd (k + 1 + m + 1 + w.length) blockPeg x rest [.stmt s]) :
    Bd k (.ref .block) ('\n' :: (List.replicate m '\n' ++ ('<' :: (w ++ x)))) rest
      [.stmt (.xblock (List.replicate m '\n') (some .dedent) s)] := by
  refine .plain (n := .block) (bs := [.str .margin_out (List.replicate m '\n'), .str .dedent ['<'], .stmt s]) ?_ rfl
  have h0 : Bd k (.ref .margin_out) ('\n' :: List.replicate m '\n') ('<' :: (w ++ (x ++ rest))) [.str .margin_out (List.replicate m '\n')] :=
    builds_marginOut (by simp)
  have h1 : ∀ k, Bd k (.ref .modifier) ['<'] (w ++ (x ++ rest)) [.str .dedent ['<']] := fun k =>
    .reduced rfl (.alt (.here (.plain (n := .dedent) (bs := []) (.lit _ _) rfl)))
  have h2 : ∀ k, Bd k (.opt (.seq [.ref .modifier, .ref .ws])) ('<' :: w) (x ++ rest) [.str .dedent ['<']] := fun k =>
    .opt_some (.ofSeq (.step (h1 _) (.step (.ws hw hs.noBlank) (.nil _))))
  exact .ofSeq (.step h0 (.step (h2 _) (.step (h.at (by simp; omega)) (.nil _))))

theorem builds_append {m : Nat} {w x rest : Str} {s : Stmt P} (hw : Blanks w) (hs : Starts M U (x ++ rest))
    (h : Bd (k + 1 + m + 3 + w.length) blockPeg x rest [.stmt s]) :
    Bd k (.ref .block) ('\n' :: (List.replicate m '\n' ++ (s!!"..." ++ (w ++ x)))) rest
      [.stmt (.xblock (List.replicate m '\n') (some .append) s)] := by
  refine .plain (n := .block) (bs := [.str .margin_out (List.replicate m '\n'), .str .append (s!!"..."), .stmt s]) ?_ rfl
  have h0 : Bd k (.ref .margin_out) ('\n' :: List.replicate m '\n') (s!!"..." ++ (w ++ (x ++ rest))) [.str .margin_out (List.replicate m '\n')] :=
    builds_marginOut (by simp)
  have h1 : ∀ k, Bd k (.ref .modifier) (s!!"...") (w ++ (x ++ rest)) [.str .append (s!!"...")] := fun k =>
    .reduced rfl (.alt (.there (.first 200 rfl) (.here (.plain (n := .append) (bs := []) (.lit _ _) rfl))))
  have h2 : ∀ k, Bd k (.opt (.seq [.ref .modifier, .ref .ws])) (s!!"..." ++ w) (x ++ rest) [.str .append (s!!"...")] := fun k =>
    .opt_some (.ofSeq (.step (h1 _) (.step (.ws hw hs.noBlank) (.nil _))))
  exact .ofSeq (.step h0 (.step (h2 _) (.step (h.at (by simp; omega)) (.nil _))))

/-- The statement of reading a list of blocks. -/
def ReadsBlocks (M : Marks) (U : Uni) (P : Type) (names : Str → Option Char) (full : Str) (k : Nat) (is : List Item)
    (ss : List (Stmt P)) : Prop :=
  ItemsOk is → ∀ rest, rest = [] ∨ GroupEnd M rest → At full k (itemsFlat M is ++ rest) →
    Many M U P names full k (.ref .block) (itemsFlat M is) rest (ss.map stmtB) ∧ BlockEnd M U (itemsFlat M is ++ rest)

theorem no_nl {rest : Str} (h : rest = [] ∨ GroupEnd M rest) : Fl (.ref .nl) rest := by
  rcases h with rfl | ⟨c, s, rfl, hc⟩
  · exact .first 200 rfl
  · have hm : c ≠ '\n' := by
      rcases hc with rfl | rfl
      · exact mark_nl (M := M) U (by simp [isMark])
      · exact mark_nl (M := M) U (by simp [isMark])
    refine .ref (.rx ?_)
    refine RE.match?_seq_none ?_
    simp [RE.match?, RE.rests, hm]

theorem blocks_end {rest : Str} (h : rest = [] ∨ GroupEnd M rest) : BlockEnd M U rest := by
  refine ⟨?_, .ref (.seq1 (no_nl h)), .seq1 (no_nl h)⟩
  rcases h with rfl | h
  · exact .nil
  · exact h.closed

theorem blocks_nil : ReadsBlocks M U P names full k [] [] := fun _ _ hr _ =>
  ⟨.nil (.ref (.seq1 (.ref (.seq1 (no_nl hr))))), blocks_end hr⟩

theorem line_end {m : Nat} {s : Str} (h : s.head? ≠ some '\n') (h1 : Fl (.lit (s!!"else")) s)
    (h2 : Fq [.lit (s!!"elif"), .ref .clause_if] s) : BlockEnd M U ('\n' :: (List.replicate m '\n' ++ s)) :=
  ⟨.nl, line_else h h1, line_elif h h2⟩

theorem head_ne {t u : Str} (ht : '\n' ∉ t) (hne : t ≠ []) : (t ++ u).head? ≠ some '\n' := by
  cases t with
  | nil => exact absurd rfl hne
  | cons c t =>
    intro h
    cases h
    simp at ht

/-- A block and the blocks after it. -/
theorem blocks_step {m : Nat} {t : Str} {is js : List Item} {x : Stmt P} {ss : List (Stmt P)}
    (hx : stmtB x = .stmt x)
    (h : ItemsOk (.line m t :: is) → ∀ rest, BlockEnd M U rest → At full k (itemsFlat M (.line m t :: is) ++ rest) →
      Bd k (.ref .block) (itemsFlat M (.line m t :: is)) rest [.stmt x] ∧ BlockEnd M U (itemsFlat M (.line m t :: is) ++ rest))
    (hs : ReadsBlocks M U P names full (k + (itemsFlat M (.line m t :: is)).length) js ss) :
    ReadsBlocks M U P names full k (.line m t :: (is ++ js)) (x :: ss) := by
  intro hok rest hr hat
  have hf : itemsFlat M (.line m t :: (is ++ js)) = itemsFlat M (.line m t :: is) ++ itemsFlat M js :=
    itemsFlat_append (M := M) (.line m t :: is) js
  rw [hf, List.append_assoc] at hat
  obtain ⟨ok1, ok2⟩ := ItemsOk.append (is := .line m t :: is) (js := js) hok
  obtain ⟨h1, h2⟩ := hs ok2 rest hr hat.move
  obtain ⟨h3, h4⟩ := h ok1 _ h2 hat
  have hne : itemsFlat M (.line m t :: is) ≠ [] := by rw [line_flat]; simp
  rw [hf, List.append_assoc, List.map_cons, hx]
  exact ⟨⟨.cons h3 hne h1.star, .cons h3 hne h1.more, fun _ => .plus h3 hne h1.more⟩, h4⟩

theorem blocks_cons {m : Nat} {t : Str} {is js : List Item} {s : Stmt P} {ss : List (Stmt P)}
    (hb : Block M names (k + 1 + m) 1 t is s) (h : ReadsBlock M U P names full blockPeg (k + 1 + m) 1 t is s)
    (hs : ReadsBlocks M U P names full (k + (itemsFlat M (.line m t :: is)).length) js ss) :
    ReadsBlocks M U P names full k (.line m t :: (is ++ js)) (.xblock (List.replicate m '\n') none s :: ss) := by
  refine blocks_step rfl ?_ hs
  intro hok rest hr hat
  obtain ⟨h1, h2, h3⟩ := line_ok hok
  have hst := block_starts (U := U) hb hr.shut.eol
  have hf : itemsFlat M (.line m t :: is) ++ rest = '\n' :: (List.replicate m '\n' ++ (t ++ (itemsFlat M is ++ rest))) := by
    rw [line_flat]; simp
  rw [hf] at hat ⊢
  refine ⟨?_, line_end hst.noNl hst.noElse hst.noElif⟩
  rw [line_flat]
  exact builds_block (by simpa using hst) (h h1 h3 rest hr hat.line)

theorem blocks_dedent {m : Nat} {w t : Str} {is js : List Item} {s : Stmt P} {ss : List (Stmt P)} (hw : Blanks w)
    (hb : Block M names (k + 1 + m + 1 + w.length) (2 + w.length) t is s)
    (h : ReadsBlock M U P names full blockPeg (k + 1 + m + 1 + w.length) (2 + w.length) t is s)
    (hs : ReadsBlocks M U P names full (k + (itemsFlat M (.line m ('<' :: (w ++ t)) :: is)).length) js ss) :
    ReadsBlocks M U P names full k (.line m ('<' :: (w ++ t)) :: (is ++ js)) (.xblock (List.replicate m '\n') (some .dedent) s :: ss) := by
  refine blocks_step rfl ?_ hs
  intro hok rest hr hat
  obtain ⟨h1, h2, h3⟩ := line_ok hok
  have hst := block_starts (U := U) hb hr.shut.eol
  have hf : itemsFlat M (.line m ('<' :: (w ++ t)) :: is) ++ rest =
      '\n' :: (List.replicate m '\n' ++ (('<' :: w) ++ (t ++ (itemsFlat M is ++ rest)))) := by
    rw [line_flat]; simp
  rw [hf] at hat ⊢
  refine ⟨?_, line_end (by simp) (.first 200 rfl) (.first 200 rfl)⟩
  rw [line_flat]
  have hc := hat.line.move (fun hm => h1 (by simp at hm; simp [hm]))
  have e1 : k + 1 + m + ('<' :: w).length = k + 1 + m + 1 + w.length := by simp; omega
  have e2 : 1 + ('<' :: w).length = 2 + w.length := by simp; omega
  rw [e1, e2] at hc
  have := h (fun hm => h1 (by simp [hm])) h3 rest hr hc
  have := builds_dedent (k := k) (m := m) hw (by simpa using hst) this
  simpa using this

theorem blocks_append {m : Nat} {w t : Str} {is js : List Item} {s : Stmt P} {ss : List (Stmt P)} (hw : Blanks w)
    (hb : Block M names (k + 1 + m + 3 + w.length) (4 + w.length) t is s)
    (h : ReadsBlock M U P names full blockPeg (k + 1 + m + 3 + w.length) (4 + w.length) t is s)
    (hs : ReadsBlocks M U P names full (k + (itemsFlat M (.line m (s!!"..." ++ (w ++ t)) :: is)).length) js ss) :
    ReadsBlocks M U P names full k (.line m (s!!"..." ++ (w ++ t)) :: (is ++ js)) (.xblock (List.replicate m '\n') (some .append) s :: ss) := by
  refine blocks_step rfl ?_ hs
  intro hok rest hr hat
  obtain ⟨h1, h2, h3⟩ := line_ok hok
  have hst := block_starts (U := U) hb hr.shut.eol
  have hf : itemsFlat M (.line m (s!!"..." ++ (w ++ t)) :: is) ++ rest =
      '\n' :: (List.replicate m '\n' ++ ((s!!"..." ++ w) ++ (t ++ (itemsFlat M is ++ rest)))) := by
    rw [line_flat]; simp
  rw [hf] at hat ⊢
  refine ⟨?_, line_end (by simp) (.first 200 rfl) (.first 200 rfl)⟩
  rw [line_flat]
  have hc := hat.line.move (fun hm => h1 (by simp at hm; simp [hm]))
  have e1 : k + 1 + m + (s!!"..." ++ w).length = k + 1 + m + 3 + w.length := by simp; omega
  have e2 : 1 + (s!!"..." ++ w).length = 4 + w.length := by simp; omega
  rw [e1, e2] at hc
  have := h (fun hm => h1 (by simp [hm])) h3 rest hr hc
  have := builds_append (k := k) (m := m) hw (by simpa using hst) this
  simpa using this

/-! Groups of blocks -/

theorem nested_none : ReadsNested M U P names full k [] [] := by
  intro _ rest hr _
  refine ⟨hr.eol, .opt_none (no_tail (tl := .tail_blocks) (co := .core_blocks) rfl hr), fun h => absurd rfl h⟩

/-- A group, whose inside is read before its closing marks. -/
theorem builds_levels {x : Str} {bs : List (Built P)} : ∀ {inc : Str} {k : Nat} {rest : Str}, Blanks inc → inc ≠ [] →
    Bd (k + inc.length) (.ref .core_blocks) x (closeMarks M inc ++ rest) bs →
    Bd k (.ref .tail_blocks) (openMarks M inc ++ (x ++ closeMarks M inc)) rest
      (inc.map .indent ++ (bs ++ inc.reverse.map .dedent))
  | [], _, _, _, hne, _ => absurd rfl hne
  | [c], k, rest, hw, _, h => by
    have hc := hw c (by simp)
    exact builds_level (tl := .tail_blocks) (co := .core_blocks) rfl rfl hc (x := x) (rest := rest) (bs := bs) h
  | c :: d :: inc, k, rest, hw, _, h => by
    have hc := hw c (by simp)
    have hw' : Blanks (d :: inc) := fun c hc => hw c (by simp [hc])
    have ih := builds_levels (x := x) (bs := bs) (inc := d :: inc) (k := k + 1)
      (rest := (if c = ' ' then M.dedentS else M.dedentT) :: rest) hw' (by simp) (by
        have h' : Bd (k + 1 + (d :: inc).length) (.ref .core_blocks) x (closeMarks M (c :: d :: inc) ++ rest) bs := h.at (by simp; omega)
        simpa [closeMarks] using h')
    have := builds_level (tl := .tail_blocks) (co := .core_blocks) rfl rfl hc (.reduced rfl (.alt (.here ih)))
    refine this.conv ?_ ?_
    · simp [openMarks, closeMarks]
    · simp

omit hM in
theorem bracket_stmtB (inc : Str) (ss : List (Stmt P)) :
    (bracket .indent .dedent inc ss).map stmtB = inc.map .indent ++ (ss.map stmtB ++ inc.reverse.map .dedent) := by
  simp [bracket, stmtB, Function.comp_def]

theorem blocks_core {items : List Item} {ss : List (Stmt P)} (hne : items ≠ []) (hok : ItemsOk items)
    (h : ReadsBlocks M U P names full k items ss) {rest : Str} (hr : rest = [] ∨ GroupEnd M rest) (hat : At full k (itemsFlat M items ++ rest))
    (hl : Spec.Blocks M names k items ss) :
    Bd k (.ref .core_blocks) (itemsFlat M items) rest (ss.map stmtB) := by
  obtain ⟨h1, h2⟩ := h hok rest hr hat
  have hx : itemsFlat M items ≠ [] := by
    cases hl with
    | nil => exact absurd rfl hne
    | cons | dedent | append => rw [line_flat]; simp
  refine .reduced rfl (.alt (.there ?_ (.here (h1.plus hx))))
  exact no_tail (tl := .tail_blocks) (co := .core_blocks) rfl h2.shut

theorem nested_group {inc : Str} {js : List Item} {ss : List (Stmt P)} (hi : Blanks inc) (hn : inc ≠ []) (hj : js ≠ [])
    (hb : Spec.Blocks M names (k + inc.length) js ss) (h : ReadsBlocks M U P names full (k + inc.length) js ss) :
    ReadsNested M U P names full k [.group inc js] (bracket .indent .dedent inc ss) := by
  intro hok rest hr hat
  have hf : itemsFlat M [.group inc js] = openMarks M inc ++ (itemsFlat M js ++ closeMarks M inc) := by
    have := flat_group (M := M) inc js
    simpa [itemsFlat] using this
  rw [hf] at hat ⊢
  have hlen : (openMarks M inc).length = inc.length := by simp [openMarks]
  have hat' : At full (k + inc.length) (itemsFlat M js ++ (closeMarks M inc ++ rest)) := by
    rw [List.append_assoc, List.append_assoc] at hat
    have := hat.move
    rwa [hlen] at this
  have hokj : ItemsOk js := by
    have := hok.1
    unfold Item.Ok at this
    exact this.2.2.2
  have h1 := blocks_core hj hokj h (.inr (closeMarks_end hn)) hat' hb
  have h2 : Bd k (.ref .tail_blocks) (openMarks M inc ++ (itemsFlat M js ++ closeMarks M inc)) rest
      ((bracket .indent .dedent inc ss).map stmtB) := by
    rw [bracket_stmtB]
    exact builds_levels hi hn h1
  exact ⟨openMarks_eol hn, .opt_some h2, fun _ => h2⟩

/-! The whole -/

variable (M U P names full)
mutual

theorem blocks_reads : ∀ {k : Nat} {is : List Item} {ss : List (Stmt P)}, Spec.Blocks M names k is ss → ReadsBlocks M U P names full k is ss
  | _, _, _, .nil => blocks_nil
  | _, _, _, .cons hb hs => blocks_cons hb (block_reads hb) (blocks_reads hs)
  | _, _, _, .dedent hw hb hs => blocks_dedent hw hb (block_reads hb) (blocks_reads hs)
  | _, _, _, .append hw hb hs => blocks_append hw hb (block_reads hb) (blocks_reads hs)

theorem nested_reads : ∀ {k : Nat} {is : List Item} {ss : List (Stmt P)}, Spec.Nested M names k is ss → ReadsNested M U P names full k is ss
  | _, _, _, .none => nested_none
  | _, _, _, .group hi hn hj hb => nested_group hi hn hj hb (blocks_reads hb)

theorem structBody_reads : ∀ {k c : Nat} {t : Str} {is : List Item} {s : Stmt P}, Spec.StructBody M names k c t is s →
    ReadsBody M U P names full .generic_struct k c t is s
  | _, _, _, _, _, .text hw h => struct_text ⟨_, rfl⟩ rfl hw h
  | _, _, _, _, _, .plain h => struct_plain (nested_reads h)
  | _, _, _, _, _, .remark hg h => struct_remark hg (nested_reads h)
  | _, _, _, _, _, .colon hw hm h => struct_colon hw hm (nested_reads h)
  | _, _, _, _, _, .headline hw hw' hh h => struct_headline hw hw' hh (nested_reads h)

theorem blockBody_reads : ∀ {k : Nat} {t : Str} {is : List Item} {s : Stmt P}, Spec.BlockBody M names k t is s →
    ReadsControl M U P names full k t is s
  | _, _, _, _, .colon hw hm h => fun _ => control_colon hw hm (nested_reads h)
  | _, _, _, _, .plain hm h hne => fun _ => control_plain hm (nested_reads h) hne

theorem controlBody_reads : ∀ {k c : Nat} {t : Str} {is : List Item} {s : Stmt P}, Spec.ControlBody M names k c t is s →
    ReadsBody M U P names full .generic_control k c t is s
  | _, _, _, _, _, .text hw h => struct_text ⟨_, rfl⟩ rfl hw h
  | _, _, _, _, _, .body h => generic_body h (blockBody_reads h)

theorem clause_reads : ∀ {k c : Nat} {t : Str} {is : List Item} {e : Expr} {b : Option (Stmt P)}, Spec.Clause M names k c t is e b →
    ReadsClause M U P names full k c t is e b
  | _, _, _, _, _, _, .factor hw hne h ht hc => clause_factor hw hne h ht hc (controlBody_reads hc)
  | _, _, _, _, _, _, .compound hw hne h ht hc => clause_compound hw hne h ht hc (blockBody_reads hc)
  | _, _, _, _, _, _, .empty hw hne h ht => clause_empty hw hne h ht

theorem loop_reads : ∀ {k c : Nat} {t : Str} {is : List Item} {e : Expr} {b : List (Stmt P)}, Spec.Loop M names k c t is e b →
    ReadsLoop M U P names full k c t is e b
  | _, _, _, _, _, _, .factor h ht hc => loop_factor h ht hc (controlBody_reads hc)
  | _, _, _, _, _, _, .compound h ht hc => loop_compound h ht hc (blockBody_reads hc)
  | _, _, _, _, _, _, .empty h ht => loop_empty h ht

theorem else_reads : ∀ {k : Nat} {is : List Item} {s : Stmt P}, Spec.Else M names k is s → ReadsElse M U P names full k is s
  | _, _, _, .body h => else_body (controlBody_reads h)
  | _, _, _, .empty => else_empty

theorem maybe_reads : ∀ {k : Nat} {is : List Item} {s : Option (Stmt P)}, Spec.MaybeElse M names k is s → ReadsMaybe M U P names full k is s
  | _, _, _, .none => maybe_none
  | _, _, _, .some h => maybe_some h (else_reads h)

theorem elses_reads : ∀ {k : Nat} {is : List Item} {ss : List (Stmt P)}, Spec.Elses M names k is ss → ReadsElses M U P names full k is ss
  | _, _, _, .nil => elses_nil
  | _, _, _, .cons h hs => elses_cons h (else_reads h) (elses_noGroup hs) (elses_reads hs)

theorem elifs_reads : ∀ {k : Nat} {is : List Item} {cs : List (Expr × Option (Stmt P))}, Spec.Elifs M names k is cs →
    ReadsElifs M U P names full k is cs
  | _, _, _, .nil => elifs_nil
  | _, _, _, .cons h hs => elifs_cons (clause_reads h) (elifs_noGroup hs) (elifs_reads hs)

theorem structBlock_reads : ∀ {k c : Nat} {t : Str} {is : List Item} {s : Stmt P}, Spec.StructBlock M names k c t is s →
    ReadsBody M U P names full .block_struct k c t is s
  | _, _, _, _, _, .text h => struct_block_text h
  | _, _, _, _, _, .tags h h1 h2 hb => struct_tags h h1 h2 hb (structBody_reads hb)
  | _, _, _, _, _, .null hb => struct_null (structBody_reads hb)

theorem block_reads : ∀ {k c : Nat} {t : Str} {is : List Item} {s : Stmt P}, Spec.Block M names k c t is s →
    ReadsBlock M U P names full blockPeg k c t is s
  | _, _, _, _, _, .struct h => block_struct h (structBlock_reads h)
  | _, _, _, _, _, .comment hm ht h => block_comment hm ht h
  | _, _, _, _, _, .pass => block_pass
  | _, _, _, _, _, .assign hw ht hw1 hw2 h hr => block_control (single fun _ he => reads_assign hw ht hw1 hw2 h hr he)
  | _, _, _, _, _, .inplace hw hn hw1 ho hw2 h hr => block_control (single fun _ he => reads_inplace hw hn hw1 ho hw2 h hr he)
  | _, _, _, _, _, .expr hw hn h ht hr => block_control (single fun _ he => reads_call hw hn h ht hr he)
  | _, _, _, _, _, .ifBlock h1 h2 h3 =>
    block_if (reads_ifBlock (clause_reads h1) (elifs_reads h2) (maybe_reads h3) (elifs_noGroup h2) (maybe_noGroup h3))
  | _, _, _, _, _, .whileBlock h1 h3 => block_while (reads_whileBlock (clause_reads h1) (maybe_reads h3) (maybe_noGroup h3))
  | _, _, _, _, _, .forBlock hw hn ht hw1 hn1 hw2 hn2 h1 h3 =>
    block_for (reads_forBlock hw hn ht hw1 hn1 hw2 hn2 (loop_reads h1) (maybe_reads h3) (maybe_noGroup h3))
  | _, _, _, _, _, .tryBlock h1 h3 => block_try (reads_tryBlock (controlBody_reads h1) (elses_reads h3) (elses_noGroup h3))
  | _, _, _, _, _, .optional hw h =>
    block_optional (reads_optional hw (struct_noBlank U h) (structBlock_reads h))
  | _, _, _, _, _, .define hw hn ht hf hd hx hy hb => block_define (reads_define hw hn ht hf hd hx hy hb (structBody_reads hb))
  | _, _, _, _, _, .imports hw1 hn1 hp hw2 hn2 hw3 hn3 h hr =>
    block_imports (single fun _ he => reads_imports hw1 hn1 hp hw2 hn2 hw3 hn3 h hr he)
  | _, _, _, _, _, .context hw hn h hr => block_context (single fun _ he => reads_context hw hn h hr he)
end

theorem document_reads {items : List Item} {ss : List (Stmt P)} (hne : items ≠ []) (hok : ItemsOk items) (h : Spec.Blocks M names 0 items ss) :
    Builds M U P names (itemsFlat M items) 0 (.ref .document) (itemsFlat M items) [] [.document ss] := by
  have hb := blocks_core (U := U) (full := itemsFlat M items) hne hok (blocks_reads M U P names _ h) (rest := []) (.inl rfl)
    (by rw [List.append_nil]; exact .zero) h
  refine .plain (n := .document) (bs := ss.map stmtB) ?_ ?_
  · exact .ofSeq (.step (x := itemsFlat M items) (y := []) (.opt_some hb) (.step (x := []) (.opt_none (.first 200 rfl)) (.nil _)))
  · rw [attachQuals_id (stmtB_noQual ss)]
    simp only [setup, asStmts_stmtB]; rfl

/-- A written script is loaded as the statements it denotes. -/
theorem script_loads {items : List Item} {ss : List (Stmt P)} (hne : items ≠ []) (hok : ItemsOk items) (h : Spec.Blocks M names 0 items ss) :
    loadScript M U names (itemText items) = .ok ss :=
  (document_reads M U P names hne hok h).load (preprocess_items M items hne hok)

end
end Verif
