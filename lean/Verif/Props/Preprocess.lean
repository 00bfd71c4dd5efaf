import Verif.Lemmas.Preprocess

/-! Properties C13-C19: encoding of indentation, choice of marks, location of syntax errors. -/

namespace Verif
open Py Spec

/-- C13. Preprocessing returns an encoded script or raises `IndentationError`; no assertion fails. -/
theorem C13_no_internal_failure (M : Marks) (text : Str) :
    (∃ out, preprocess M text = .ok out) ∨
    (∃ n, preprocess M text = .error (.indentation n)) := by
  rw [preprocess_eq_enc]
  have h := enc_no_assertion M [] 0 0 (lines text)
  cases he : enc M [] 0 0 (lines text) with
  | ok out => exact Or.inl ⟨out, rfl⟩
  | error e =>
    cases e with
    | indentation n => exact Or.inr ⟨n, rfl⟩
    | assertion => exact absurd he h

/-- The standard marks. -/
def stdMarks : Marks := ⟨'❨', '❩', '❪', '❫'⟩

example : preprocess stdMarks (s!!"a\n  b\n\nc ") = .ok (s!!"\na❨❨\nb❩❩\n\nc") := by decide
example : preprocess stdMarks (s!!"a\n  b\n\tc") = .error (.indentation 3) := by decide

/-- C14. In the encoded script, the marks form a balanced sequence of typed brackets. -/
theorem C14_balanced (M : Marks) (text out : Str) (hu : Usable M text)
    (ho : preprocess M text = .ok out) : brackets M [] out = some [] := by
  rw [preprocess_eq_enc] at ho
  have := enc_brackets hu.distinct hu.notNl [] 0 0 (lines text)
    (fun l hl c hc => hu.fresh c (mem_of_mem_lines hl hc)) out ho
  simpa [kinds] using this

theorem stdMarks_usable : Usable stdMarks (s!!"a\n \tb\n\n c ") :=
  ⟨by simp [Marks.Distinct, stdMarks], by simp [isMark, stdMarks], by simp [isMark, stdMarks]⟩

example : ∃ out, preprocess stdMarks (s!!"a\n \tb\n\n c ") = .ok out ∧
    out = s!!"\na❨❪\nb❫\n\nc❩" ∧ Usable stdMarks (s!!"a\n \tb\n\n c ") :=
  ⟨_, by decide, rfl, stdMarks_usable⟩
/-- The bracket check rejects wrong kinds and unbalanced sequences. -/
example : brackets stdMarks [] (s!!"❨a❫") = none ∧ brackets stdMarks [] (s!!"❨a") = some [.space] ∧
    brackets stdMarks [] (s!!"❩") = none := by decide

/-- C15. If the script is indented with spaces and tabs, all its lines can be recovered from the
encoded script, up to trailing whitespace. -/
theorem C15_lossless (M : Marks) (text out : Str) (hu : Usable M text)
    (hst : ∀ l ∈ lines text, ∀ c ∈ leading l, c = ' ' ∨ c = '\t')
    (ho : preprocess M text = .ok out) :
    decodeScript M out = (lines text).map rstrip := by
  rw [preprocess_eq_enc] at ho
  obtain ⟨mk, segs, h1, _, h3⟩ := enc_decode hu.distinct hu.notNl [] 0 0 (lines text)
    (fun l hl => not_mem_lines hl) (fun l hl c hc => hu.fresh c (mem_of_mem_lines hl hc)) hst out ho
  unfold decodeScript
  rw [h1]
  simpa using h3

/-- C15. Two scripts (indented with spaces and tabs) with the same encoding differ only in trailing
whitespace. -/
theorem C15_injective (M : Marks) (t1 t2 out : Str) (hu1 : Usable M t1) (hu2 : Usable M t2)
    (hst1 : ∀ l ∈ lines t1, ∀ c ∈ leading l, c = ' ' ∨ c = '\t')
    (hst2 : ∀ l ∈ lines t2, ∀ c ∈ leading l, c = ' ' ∨ c = '\t')
    (h1 : preprocess M t1 = .ok out) (h2 : preprocess M t2 = .ok out) :
    (lines t1).map rstrip = (lines t2).map rstrip := by
  rw [← C15_lossless M t1 out hu1 hst1 h1, C15_lossless M t2 out hu2 hst2 h2]

/-- The hypothesis of C15 is met by a script with nested mixed indentation. -/
example : ∀ l ∈ lines (s!!"a\n \tb\n\n c "), ∀ c ∈ leading l, c = ' ' ∨ c = '\t' := by decide
example : decodeScript stdMarks (s!!"\na❨❪\nb❫\n\nc❩") = [s!!"a", s!!" \tb", [], s!!" c"] := by
  decide
/-- It is needed: other whitespace is encoded as a tab, so two different scripts have one encoding. -/
example : preprocess stdMarks (s!!"\x0ba") = preprocess stdMarks (s!!"\ta") := by decide

/-- C16. Segment 0 of the encoded script holds only marks; segment `k+1`, with marks removed, is
line `k` (from 0) of the script with surrounding whitespace stripped; there are no other segments. -/
theorem C16_line_numbers (M : Marks) (text out : Str) (hu : Usable M text)
    (ho : preprocess M text = .ok out) :
    ∃ seg0 segs, lines out = seg0 :: segs ∧ (∀ c ∈ seg0, isMark M c = true) ∧
      segs.length = (lines text).length ∧
      ∀ (k : Nat) (l : Str), (lines text)[k]? = some l →
        ∃ s, segs[k]? = some s ∧ unmarked M s = strip l := by
  rw [preprocess_eq_enc] at ho
  obtain ⟨mk, segs, h1, h2, h3⟩ := enc_segments M hu.notNl [] 0 0 (lines text)
    (fun l hl => not_mem_lines hl) (fun l hl c hc => hu.fresh c (mem_of_mem_lines hl hc)) out ho
  refine ⟨mk, segs, by simpa using h1, h2, ?_, ?_⟩
  · have := congrArg List.length h3; simpa using this
  · intro k l hk
    have := congrArg (fun x => x[k]?) h3
    simp only [List.getElem?_map, hk, Option.map_some] at this
    cases hs : segs[k]? with
    | none => rw [hs] at this; simp at this
    | some s => rw [hs] at this; exact ⟨s, rfl, by simpa [strip] using this⟩

example : lines (s!!"\na❨❪\nb❫\n\nc❩") = [[], s!!"a❨❪", s!!"b❫", [], s!!"c❩"] := by decide

/-- C17. Preprocessing raises `IndentationError` with number `n` iff line `n` is the first one with
an indentation incompatible with the closest preceding non-blank line. -/
theorem C17_error_iff (M : Marks) (text : Str) (n : Nat) :
    preprocess M text = .error (.indentation n) ↔
      ∃ k, n = k + 1 ∧ BadLine (lines text) k ∧ ∀ j < k, ¬ BadLine (lines text) j := by
  rw [preprocess_eq_enc]
  have h1 := enc_error M [] 0 0 (lines text)
  have h2 := firstBad_spec [] (lines text)
  simp only [badFrom_nil_iff] at h2
  cases hf : firstBad [] (lines text) with
  | none =>
    rw [hf] at h1 h2
    obtain ⟨out, ho⟩ := h1
    simp only [ho, reduceCtorEq, false_iff]
    rintro ⟨k, _, hb, _⟩
    exact h2 k hb
  | some k =>
    rw [hf] at h1 h2
    simp only [Nat.zero_add] at h1
    rw [h1]
    simp only [Except.error.injEq, PreErr.indentation.injEq]
    constructor
    · rintro rfl; exact ⟨k, rfl, h2⟩
    · rintro ⟨j, rfl, hb, hm⟩
      have : j = k := by
        rcases Nat.lt_trichotomy j k with h | h | h
        · exact absurd hb (h2.2 j h)
        · exact h
        · exact absurd h2.1 (hm k h)
      omega

/-- C17. Preprocessing succeeds iff there is no incompatible line. -/
theorem C17_ok_iff (M : Marks) (text : Str) :
    (∃ out, preprocess M text = .ok out) ↔ ∀ k, ¬ BadLine (lines text) k := by
  rw [preprocess_eq_enc]
  have h1 := enc_error M [] 0 0 (lines text)
  have h2 := firstBad_spec [] (lines text)
  simp only [badFrom_nil_iff] at h2
  cases hf : firstBad [] (lines text) with
  | none =>
    rw [hf] at h1 h2
    exact ⟨fun _ => h2, fun _ => h1⟩
  | some k =>
    rw [hf] at h1 h2
    simp only at h1
    rw [h1]
    simp only [reduceCtorEq, exists_false, false_iff, not_forall, not_not]
    exact ⟨k, h2.1⟩

/-- A truncated script never gets an indentation error that the full script does not have. -/
theorem C17_prefix (M : Marks) (text : Str) (k : Nat) (hk : 0 < k)
    (h : ∃ out, preprocess M text = .ok out) :
    ∃ out, preprocess M (join ['\n'] ((lines text).take k)) = .ok out := by
  rw [C17_ok_iff] at h ⊢
  have hl : lines (join ['\n'] ((lines text).take k)) = (lines text).take k := by
    apply lines_unique _ _ _ _ rfl
    · have := lines_ne_nil text
      cases hs : lines text with
      | nil => exact absurd hs this
      | cons a as => cases k with
        | zero => omega
        | succ k => simp
    · intro l hm; exact not_mem_lines (List.mem_of_mem_take hm)
  rw [hl]
  rintro j ⟨l, h1, h2, h3⟩
  rw [List.getElem?_take] at h1
  split at h1
  · rename_i hj
    refine h j ⟨l, h1, h2, ?_⟩
    rw [List.take_take, Nat.min_eq_left (by omega)] at h3
    exact h3
  · cases h1

/-- An incompatible line exists in a script whose lines 2 and 4 mix tabs and spaces. -/
example : BadLine (lines (s!!"a\n  b\n\n\tc")) 3 :=
  ⟨s!!"\tc", by decide, by decide, by decide, by decide⟩

/-- C18. The chosen mark characters (as code points) are four, pairwise different, none of them
occurs in the script, and none is the newline. -/
theorem C18_marks_fresh (text chars : List Nat) (h : getParserChars text = some chars) :
    chars.length = 4 ∧ chars.Nodup ∧ (∀ c ∈ chars, c ∉ text) ∧
      ∀ c ∈ chars, 0x2768 ≤ c ∧ c ≤ 0x10FFFF := by
  unfold getParserChars at h
  split at h
  · rename_i hd
    simp only [Option.some.injEq] at h
    subst h
    refine ⟨rfl, by decide, ?_, by decide⟩
    simpa using hd
  · simp only [Option.ite_none_right_eq_some, Option.some.injEq] at h
    obtain ⟨hall, rfl⟩ := h
    obtain ⟨h1, h2, h3⟩ := pickChars_spec text 4 0x2768
    refine ⟨h1, ?_, fun c hc => (h3 c hc).2, fun c hc => ⟨(h3 c hc).1, ?_⟩⟩
    · exact h2.imp (fun h => by omega)
    · simp only [List.all_eq_true, decide_eq_true_eq] at hall; exact hall c hc

/-- The picked codes do not exceed any other choice of free codes. -/
theorem pickChars_le (text : List Nat) (n code : Nat) (F : List Nat) (h1 : F.length = n)
    (h2 : F.Pairwise (· < ·)) (h3 : ∀ f ∈ F, code ≤ f ∧ f ∉ text) :
    ∀ c ∈ pickChars text n code, ∃ f ∈ F, c ≤ f := by
  induction n generalizing code F with
  | zero => simp [pickChars]
  | succ n ih =>
    cases F with
    | nil => simp at h1
    | cons f F =>
      rw [List.pairwise_cons] at h2
      have hf := h3 f (by simp)
      have hle : findFree text (text.length + 1) code ≤ f := by
        by_contra hlt
        exact hf.2 (findFree_min text (text.length + 1) code f hf.1 (by omega))
      intro c hc
      simp only [pickChars, List.mem_cons] at hc
      rcases hc with rfl | hc
      · exact ⟨f, by simp, hle⟩
      · obtain ⟨g, hg, hcg⟩ := ih _ F (by simpa using h1) h2.2 (fun g hg =>
          ⟨by have := h2.1 g hg; omega, (h3 g (by simp [hg])).2⟩) c hc
        exact ⟨g, by simp [hg], hcg⟩

/-- C18. The search for marks succeeds iff there are four code points from U+2768 up that do not
occur in the script. -/
theorem C18_marks_exist (text : List Nat) :
    (∃ chars, getParserChars text = some chars) ↔
      ∃ F : List Nat, F.length = 4 ∧ F.Pairwise (· < ·) ∧
        ∀ f ∈ F, 0x2768 ≤ f ∧ f ≤ 0x10FFFF ∧ f ∉ text := by
  constructor
  · rintro ⟨chars, h⟩
    unfold getParserChars at h
    split at h
    · rename_i hd
      refine ⟨charsDefault, rfl, by decide, ?_⟩
      have h1 : ∀ f ∈ charsDefault, f ∉ text := by simpa using hd
      have h2 : ∀ f ∈ charsDefault, 0x2768 ≤ f ∧ f ≤ 0x10FFFF := by decide
      exact fun f hf => ⟨(h2 f hf).1, (h2 f hf).2, h1 f hf⟩
    · simp only [Option.ite_none_right_eq_some, Option.some.injEq] at h
      obtain ⟨hall, rfl⟩ := h
      obtain ⟨h1, h2, h3⟩ := pickChars_spec text 4 0x2768
      simp only [List.all_eq_true, decide_eq_true_eq] at hall
      exact ⟨_, h1, h2, fun f hf => ⟨(h3 f hf).1, hall f hf, (h3 f hf).2⟩⟩
  · rintro ⟨F, h1, h2, h3⟩
    unfold getParserChars
    split
    · exact ⟨_, rfl⟩
    · refine ⟨pickChars text 4 0x2768, ?_⟩
      simp only [Option.ite_none_right_eq_some, and_true, List.all_eq_true, decide_eq_true_eq]
      intro c hc
      obtain ⟨f, hf, hcf⟩ := pickChars_le text 4 0x2768 F h1 h2
        (fun f hf => ⟨(h3 f hf).1, (h3 f hf).2.2⟩) c hc
      have := (h3 f hf).2.1
      omega

example : getParserChars [0x2768, 97, 0x276A] = some [0x2769, 0x276B, 0x276C, 0x276D] := by decide
example : getParserChars [97] = some [0x2768, 0x2769, 0x276A, 0x276B] := by decide

/-- C18. Marks that `get_parser` chose for a text are usable for it (in the sense of C14-C16). -/
theorem C18_usable (text : Str) (M : Marks)
    (h : getParserChars (text.map Char.toNat) =
      some [M.indentS.toNat, M.dedentS.toNat, M.indentT.toNat, M.dedentT.toNat]) :
    Usable M text := by
  obtain ⟨_, h2, h3, h4⟩ := C18_marks_fresh _ _ h
  have hne : ∀ (a b : Char), a.toNat ≠ b.toNat → a ≠ b := fun a b hab e => hab (by rw [e])
  refine ⟨?_, ?_, ?_⟩
  · have : [M.indentS, M.dedentS, M.indentT, M.dedentT].map Char.toNat =
      [M.indentS.toNat, M.dedentS.toNat, M.indentT.toNat, M.dedentT.toNat] := rfl
    rw [← this] at h2
    exact List.Pairwise.of_map Char.toNat (fun a b hab e => hab (by rw [e])) h2
  · intro c hc
    have hc' : c.toNat ∈ text.map Char.toNat := List.mem_map_of_mem hc
    simp only [isMark, Bool.or_eq_false_iff, beq_eq_false_iff_ne]
    refine ⟨⟨⟨?_, ?_⟩, ?_⟩, ?_⟩ <;> rintro rfl
    · exact h3 M.indentS.toNat (by simp) hc'
    · exact h3 M.dedentS.toNat (by simp) hc'
    · exact h3 M.indentT.toNat (by simp) hc'
    · exact h3 M.dedentT.toNat (by simp) hc'
  · simp only [isMark, Bool.or_eq_false_iff, beq_eq_false_iff_ne]
    have g : ∀ c : Char, 0x2768 ≤ c.toNat → '\n' ≠ c := by
      rintro c hc rfl
      simp at hc
    exact ⟨⟨⟨g _ (h4 _ (by simp)).1, g _ (h4 _ (by simp)).1⟩, g _ (h4 _ (by simp)).1⟩,
      g _ (h4 _ (by simp)).1⟩

theorem locateLoop_spec (parses : List Str → Bool) (lines : List Str) (good bad : Nat)
    (h0 : good < bad)
    (h1 : ∀ j, 1 ≤ j → j ≤ good → parses (lines.take j) = true)
    (hmono : ∀ i j, i ≤ j → j ≤ lines.length → parses (lines.take j) = true →
      parses (lines.take i) = true)
    (hbl : bad ≤ lines.length) (h2 : parses (lines.take bad) = false) :
    let r := (locateLoop parses lines good bad).2
    1 ≤ r ∧ r ≤ bad ∧ parses (lines.take r) = false ∧
      ∀ j, 1 ≤ j → j < r → parses (lines.take j) = true := by
  fun_induction locateLoop parses lines good bad with
  | case1 good bad hlt split hp ih =>
    have : split ≤ lines.length := by omega
    have := ih (by omega) (fun j _ hj2 => hmono j split hj2 this hp) hbl h2
    exact this
  | case2 good bad hlt split hp ih =>
    have := ih (by omega) h1 (by omega) (by simpa using hp)
    refine ⟨this.1, by have := this.2.1; omega, this.2.2⟩
  | case3 good bad hge =>
    refine ⟨by simp only; omega, Nat.le_refl _, h2, ?_⟩
    intro j hj1 hj2
    simp only at hj2
    exact h1 j hj1 (by omega)

/-- C19. If truncation of trailing lines never makes a script unparseable, and the script does not
parse, then the reported line number is in range, the script cut after that line does not parse and
cut after any earlier line does; the reported text is that line, stripped. -/
theorem C19_locate_error (parses : List Str → Bool) (script : Str)
    (hmono : ∀ i j, i ≤ j → j ≤ (lines script).length → parses ((lines script).take j) = true →
      parses ((lines script).take i) = true)
    (hbad : parses (lines script) = false) :
    ∃ n l, locateError parses script = some (strip l, n) ∧ 1 ≤ n ∧
      (lines script)[n - 1]? = some l ∧
      parses ((lines script).take n) = false ∧
      ∀ j, 1 ≤ j → j < n → parses ((lines script).take j) = true := by
  have hlen : 0 < (lines script).length := List.length_pos_iff.2 (lines_ne_nil script)
  have := locateLoop_spec parses (lines script) 0 (lines script).length hlen (by intros; omega)
    hmono (Nat.le_refl _) (by simpa using hbad)
  simp only at this
  generalize hr : (locateLoop parses (lines script) 0 (lines script).length).2 = r at this
  obtain ⟨h1, h2, h3, h4⟩ := this
  have hlt : r - 1 < (lines script).length := by omega
  refine ⟨r, (lines script)[r - 1], ?_, h1, by simp [hlt], h3, h4⟩
  unfold locateError
  have e : split '\n' script = lines script := rfl
  simp only [e, hr]
  have : ¬ r = 0 := by omega
  simp [this, hlt]

/-- A case: four lines, the third one is wrong. -/
example : (fun p => locateError p (s!!"a\nb\n  !c \nd")) (fun ls => ls.all (fun l => !l.elem '!')) =
    some (s!!"!c", 3) := by
  simp [locateError, split, locateLoop, strip, rstrip, lstrip, isSpace]

end Verif
