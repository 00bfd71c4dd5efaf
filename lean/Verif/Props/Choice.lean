import Verif.Lemmas.RecodeClean
import Verif.Lemmas.FitLoad
import Verif.Props.Parse
import Verif.Props.Trailing

/-
C117: the choice of the characters that mark indentation makes no difference.
-/

namespace Verif
open Py Spec

/-- Characters that may mark indentation in the script: distinct, apart from all characters of the grammar and of the
script, and no whitespace. -/
structure Spec.MarksFor (M : Marks) (U : Uni) (script : Str) : Prop where
  apart : MarksApart M U
  space : ∀ c, isMark M c = true → isSpace c = false
  fresh : ∀ c ∈ script, isMark M c = false

section
variable {M M' : Marks} {U : Uni}

theorem Spec.MarksFor.nl {s : Str} (h : MarksFor M U s) : isMark M '\n' = false :=
  have := h.apart
  nl_not_mark U

theorem preprocess_recode {s : Str} (h : MarksFor M U s) :
    preprocess M' s = (preprocess M s).map (List.map (recode M M')) := by
  rw [preprocess_eq_enc, preprocess_eq_enc]
  exact enc_recode h.apart.distinct h.nl (fun l hl c hc => h.fresh c (mem_of_mem_lines hl hc))

theorem preprocess_code {s : Str} (h' : MarksFor M' U s) {flat : Str} (h : preprocess M s = .ok flat) :
    ∀ c ∈ flat, CodeChar M M' c := by
  rw [preprocess_eq_enc] at h
  exact enc_code h'.nl (fun l hl c hc => h'.fresh c (mem_of_mem_lines hl hc)) h

theorem unmarked_recode {s : Str} (hs : ∀ c ∈ s, CodeChar M M' c) : unmarked M' (s.map (recode M M')) = unmarked M s := by
  induction s with
  | nil => rfl
  | cons c s ih =>
    have ih := ih (fun d hd => hs d (List.mem_cons_of_mem _ hd))
    have hc := hs c List.mem_cons_self
    unfold unmarked at ih ⊢
    cases hm : isMark M c with
    | true =>
      have := recode_mark (M' := M') hm
      simp [this, hm, ih]
    | false =>
      have h' : isMark M' c = false := by
        rcases hc with h | h
        · rw [hm] at h; cases h
        · exact h
      rw [List.map_cons, recode_of_not hm]
      simp [hm, h', ih]

/-- The same line has a wrong indentation; otherwise the encoded scripts have the same length, and differ in the marks
only. -/
theorem C117_encoded {s : Str} (h : MarksFor M U s) (h' : MarksFor M' U s) :
    (∃ e, preprocess M s = .error e ∧ preprocess M' s = .error e) ∨
    ∃ a a', preprocess M s = .ok a ∧ preprocess M' s = .ok a' ∧ a.length = a'.length ∧
      (∀ i : Nat, (a[i]?).map (isMark M) = (a'[i]?).map (isMark M')) ∧ unmarked M a = unmarked M' a' := by
  have e := preprocess_recode (M' := M') h
  cases hp : preprocess M s with
  | error x =>
    rw [hp] at e
    exact .inl ⟨x, rfl, e⟩
  | ok a =>
    rw [hp] at e
    have hc := preprocess_code h' hp
    refine .inr ⟨a, _, rfl, e, by simp, fun i => ?_, (unmarked_recode hc).symm⟩
    rw [List.getElem?_map]
    cases ha : a[i]? with
    | none => rfl
    | some c =>
      have hcc := hc c (List.mem_of_getElem? ha)
      simp only [Option.map_some, Option.some.injEq]
      cases hm : isMark M c with
      | true => rw [recode_mark hm]
      | false =>
        rw [recode_of_not hm]
        rcases hcc with x | x
        · rw [hm] at x; cases x
        · exact x.symm

/-- As much of the script is parsed: of a script that cannot be parsed, the same rest is left. -/
theorem C117_parsed {s a a' : Str} (h : MarksFor M U s) (h' : MarksFor M' U s)
    (ha : preprocess M s = .ok a) (ha' : preprocess M' s = .ok a') :
    (∃ t t', parse M U a = .ok t ∧ parse M' U a' = .ok t') ∨
    ∃ r r', parse M U a = .error (.incomplete r) ∧ parse M' U a' = .error (.incomplete r') ∧ r.length = r'.length ∧
      unmarked M r = unmarked M' r' := by
  have e := preprocess_recode (M' := M') h
  rw [ha, ha'] at e
  cases e
  have hc := preprocess_code h' ha
  have _ := h.apart
  have _ := h'.apart
  have hp := parse_recode (M := M) (M' := M') (U := U) h.space h'.space hc
  cases hr : parse M U a with
  | ok t =>
    rw [hr] at hp
    exact .inl ⟨t, _, rfl, hp⟩
  | error x =>
    obtain ⟨done, r, rfl, -, rfl⟩ := C66_incomplete M U a x hr
    rw [hr] at hp
    exact .inr ⟨r, _, rfl, hp, by simp, (unmarked_recode (fun c hx => hc c (by simp [hx]))).symm⟩

/-- The line that is reported with a syntax error is the same. -/
theorem C117_located {s : Str} (h : MarksFor M U s) (h' : MarksFor M' U s) :
    locateError (parsesAlone M U) s = locateError (parsesAlone M' U) s := by
  have key : ∀ n, parsesAlone M U ((split '\n' s).take n) = parsesAlone M' U ((split '\n' s).take n) := by
    intro n
    have hin : ∀ c ∈ join ['\n'] ((split '\n' s).take n), c = '\n' ∨ c ∈ s := by
      have : ∀ ls : List Str, (∀ l ∈ ls, ∀ c ∈ l, c ∈ s) → ∀ c ∈ join ['\n'] ls, c = '\n' ∨ c ∈ s := by
        intro ls
        induction ls with
        | nil => intro _ c hc; simp [join] at hc
        | cons l ls ih =>
          intro hl c hc
          cases ls with
          | nil => exact .inr (hl l (by simp) c (by simpa [join] using hc))
          | cons l2 ls =>
            simp only [join, List.mem_append, List.mem_singleton] at hc
            rcases hc with (hc | hc) | hc
            · exact .inr (hl l (by simp) c hc)
            · exact .inl hc
            · exact ih (fun x hx => hl x (List.mem_cons_of_mem _ hx)) c hc
      exact this _ (fun l hl c hc => mem_of_mem_lines (List.mem_of_mem_take hl) hc)
    have g : MarksFor M U (join ['\n'] ((split '\n' s).take n)) := ⟨h.apart, h.space, fun c hc => by
      rcases hin c hc with rfl | hc
      · exact h.nl
      · exact h.fresh c hc⟩
    have g' : MarksFor M' U (join ['\n'] ((split '\n' s).take n)) := ⟨h'.apart, h'.space, fun c hc => by
      rcases hin c hc with rfl | hc
      · exact h'.nl
      · exact h'.fresh c hc⟩
    unfold parsesAlone
    rcases C117_encoded g g' with ⟨x, e1, e2⟩ | ⟨a, a', e1, e2, -⟩
    · rw [e1, e2]
    · rw [e1, e2]
      rcases C117_parsed g g' e1 e2 with ⟨t, t', p1, p2⟩ | ⟨r, r', p1, p2, -⟩
      · simp only [p1, p2, Except.toOption, Option.isSome]
      · simp only [p1, p2, Except.toOption, Option.isSome]
  unfold locateError
  simp only [locateLoop_congr key]

/-- The same statements are read, in the same places, or the error is the same, if raw strings do not continue on
further lines: see `C117_not_in_general`. -/
theorem C117_loaded_partial {P : Type} {names : Str → Option Char} {s : Str} (h : MarksFor M U s) (h' : MarksFor M' U s)
    (hr : ∀ l ∈ lines s, RawClosed l) :
    (loadScript M' U names s : Except LoadErr (List (Stmt P))) = loadScript M U names s ∨
    ∃ r r', loadScript (P := P) M U names s = .error (.parse (.incomplete r)) ∧
      loadScript (P := P) M' U names s = .error (.parse (.incomplete r')) ∧ unmarked M r = unmarked M' r' := by
  have e := preprocess_recode (M' := M') h
  cases hp : preprocess M s with
  | error x =>
    rw [hp] at e
    left
    simp only [loadScript, hp, e, Except.map]
  | ok flat =>
    rw [hp] at e
    have e : preprocess M' s = .ok (flat.map (recode M M')) := e
    have hc := preprocess_code h' hp
    have _ := h.apart
    have _ := h'.apart
    have hq := parse_recode (M := M) (M' := M') (U := U) h.space h'.space hc
    cases hx : parse M U flat with
    | error x =>
      rw [hx] at hq
      obtain ⟨done, r, rfl, -, rfl⟩ := C66_incomplete M U flat x hx
      refine .inr ⟨r, r.map (recode M M'), ?_, ?_, (unmarked_recode (fun c hx => hc c (by simp [hx]))).symm⟩
      · simp only [loadScript, hp, hx]
      · simp only [loadScript, e, hq, recodeParse]
    | ok t =>
      left
      rw [hx] at hq
      have hS : Shape M flat := by
        rw [preprocess_eq_enc] at hp
        exact enc_shape U (fun l hl c hc => h.fresh c (mem_of_mem_lines hl hc)) hr hp
      have hcl : PClean M t := (parse_derives hx).clean h.space hS rfl (by
        rw [(C66_lossless M U flat t hx).2.1]; exact List.infix_refl _)
      have hb := buildAll_recode (P := P) (names := names) (columnAt_recode h.nl h'.nl hc)
        (low_not_mark U rfl) (low_not_mark U rfl) (rewrite 0 t) (hcl.rewrite 0)
      simp only [loadScript, hp, e, hx, hq, recodeParse, rewrite_recode, hb]

end

/-- Marks that `get_parser` takes when the script contains the first of the default ones. -/
def otherMarks : Marks := ⟨'❩', '❪', '❫', '❬'⟩

theorem otherMarks_apart : MarksApart otherMarks asciiUni := by
  have key : ∀ c, isMark otherMarks c = true → c = '❩' ∨ c = '❪' ∨ c = '❫' ∨ c = '❬' := by
    intro c hc
    simpa [isMark, otherMarks, or_assoc] using hc
  refine ⟨by unfold Marks.Distinct; decide, ?_, fun _ _ => rfl, fun _ _ => rfl, fun _ _ => ⟨rfl, rfl⟩⟩
  intro c hc
  rcases key c hc with rfl | rfl | rfl | rfl <;> decide

theorem defaultMarks_for {s : Str} (h : s.all (fun c => !isMark defaultMarks c) = true) : MarksFor defaultMarks asciiUni s := by
  refine ⟨defaultMarks_apart, fun c hc => ?_, fun c hc => by simpa using List.all_eq_true.1 h c hc⟩
  have : c = '❨' ∨ c = '❩' ∨ c = '❪' ∨ c = '❫' := by simpa [isMark, defaultMarks, or_assoc] using hc
  rcases this with rfl | rfl | rfl | rfl <;> decide

theorem otherMarks_for {s : Str} (h : s.all (fun c => !isMark otherMarks c) = true) : MarksFor otherMarks asciiUni s := by
  refine ⟨otherMarks_apart, fun c hc => ?_, fun c hc => by simpa using List.all_eq_true.1 h c hc⟩
  have : c = '❩' ∨ c = '❪' ∨ c = '❫' ∨ c = '❬' := by simpa [isMark, otherMarks, or_assoc] using hc
  rcases this with rfl | rfl | rfl | rfl <;> decide

/-- The text of the string that the first statement assigns. -/
def exAssigned : Except LoadErr (List (Stmt Unit)) → Option Str
  | .ok (.xblock _ _ (.assign _ _ (.root _ (.strLit v))) :: _) => some v
  | .ok (.xblock _ _ (.assign _ _ (.strLit v)) :: _) => some v
  | _ => none

/-- A raw string that continues on further lines contains the marks, in place of the indentation: its value is not the
one that was written, and depends on the marks that were chosen, thus on the rest of the script. -/
theorem C117_not_in_general : ∃ (M M' : Marks) (U : Uni) (s v : Str), MarksFor M U s ∧ MarksFor M' U s ∧
    exAssigned (loadScript M U (fun _ => none) s) = some v ∧ exAssigned (loadScript M' U (fun _ => none) s) ≠ some v ∧
    ∃ c ∈ v, isMark M c = true := by
  refine ⟨defaultMarks, otherMarks, asciiUni, s!!"$ x = r'a\n  b\nc'", s!!"a❨❨\nb❩❩\nc", defaultMarks_for (by decide),
    otherMarks_for (by decide), by decide +kernel, by decide +kernel, '❨', by decide, by decide⟩

/-- The marks get into the document. -/
example : exText [] (s!!"$ x = r'a\n  b\nc'\n| $x") = some (s!!"a❨❨\nb❩❩\nc") := by decide +kernel

/-- Whether quotes after `r` are closed in the line. -/
def exClosed : Str → Bool
  | [] => true
  | c :: s => (c != 'r' || (s.head? != some '\'' || s.tail.contains '\'') && (s.head? != some '"' || s.tail.contains '"')) &&
    exClosed s

theorem exClosed_spec {l : Str} (h : exClosed l = true) : RawClosed l := by
  intro u q v hl hq
  induction u generalizing l with
  | nil =>
    subst hl
    simp only [List.nil_append, exClosed, List.head?_cons, List.tail_cons, bne_self_eq_false, Bool.false_or,
      Bool.and_eq_true, Bool.or_eq_true, List.contains_iff_mem] at h
    obtain ⟨⟨h1, h2⟩, -⟩ := h
    rcases hq with rfl | rfl
    · exact h1.resolve_left (by simp)
    · exact h2.resolve_left (by simp)
  | cons c u ih =>
    subst hl
    simp only [List.cons_append, exClosed, Bool.and_eq_true] at h
    exact ih h.2 rfl

/-- A script with nested blocks, indented by blanks and tabs, and a raw string; the marks are those that `get_parser`
chooses when a comment contains the first of the default ones. -/
example : let s := s!!"$ x = r'a{b}'\nif x\n  ! one\n  \tp | $x\n% h y\n\t| $y"
    MarksFor defaultMarks asciiUni s ∧ MarksFor otherMarks asciiUni s ∧
    loadScript (P := Unit) otherMarks asciiUni (fun _ => none) s = loadScript defaultMarks asciiUni (fun _ => none) s ∧
    exAssigned (loadScript otherMarks asciiUni (fun _ => none) s) = some (s!!"a{b}") ∧
    getParserChars ((s ++ s!!"\n# ❨").map Char.toNat) =
      some [otherMarks.indentS.toNat, otherMarks.dedentS.toNat, otherMarks.indentT.toNat, otherMarks.dedentT.toNat] := by
  refine ⟨defaultMarks_for (by decide), otherMarks_for (by decide), ?_, by decide +kernel, by decide +kernel⟩
  refine (C117_loaded_partial (defaultMarks_for (by decide)) (otherMarks_for (by decide)) ?_).resolve_right ?_
  · intro l hl
    have e : (lines (s!!"$ x = r'a{b}'\nif x\n  ! one\n  \tp | $x\n% h y\n\t| $y")).all exClosed = true := by decide
    exact exClosed_spec (List.all_eq_true.1 e l hl)
  · rintro ⟨r, r', h1, -, -⟩
    have : exAssigned (loadScript defaultMarks asciiUni (fun _ => none)
        (s!!"$ x = r'a{b}'\nif x\n  ! one\n  \tp | $x\n% h y\n\t| $y")) = some (s!!"a{b}") := by decide +kernel
    rw [h1] at this
    cases this

end Verif
