import Verif.Lemmas.Shows
import Verif.Lemmas.Analyse
import Verif.Spec.Pages
import Verif.Props.Text

/-! Texts with embedded expressions: how they are read, analysed and evaluated. -/

namespace Verif
open Py Spec

/-! ### A text in one line -/

theorem layout_one (lead : Nat) (v : Str) (hl : 1 ≤ lead) (hv : '\n' ∉ v) : layoutText lead (' ' :: v) = v := by
  have hlines : lines (' ' :: v) = [' ' :: v] := lines_unique _ _ (by simp) (by simp [hv]) rfl
  have single : ∀ s l : Str, lines s = [l] → s = l := by
    intro s l h
    have := join_split '\n' s
    unfold lines at h
    rw [h] at this
    simpa [join] using this.symm
  by_cases hn : NonBlank v
  · obtain ⟨p, head', tail', own, h1, h2, -, -, h5, h6⟩ := C61_lines_partial lead (' ' :: v) (' ' :: v) [] hlines
    have hn' : NonBlank (' ' :: v) := by obtain ⟨c, hc, h⟩ := hn; exact ⟨c, by simp [hc], h⟩
    have ht : tail' = [] := List.length_eq_zero_iff.1 h2
    subst ht
    have hw : asWritten lead (' ' :: v) [] = [List.replicate lead ' ' ++ ' ' :: v] := rfl
    have hnb : NonBlank (List.replicate lead ' ' ++ ' ' :: v) := by
      obtain ⟨c, hc, h⟩ := hn; exact ⟨c, by simp [hc], h⟩
    have hlong := own.longest ⟨_, by rw [hw]; simp, hnb⟩ (List.replicate (lead + 1) ' ')
      (by intro c hc; rw [List.eq_of_mem_replicate hc]; decide)
      (by rw [hw]; intro l hl' _; rw [List.mem_singleton] at hl'; subst hl'; exact ⟨v, by rw [List.replicate_succ', List.append_assoc]; rfl⟩)
      (by simp)
    rw [List.length_replicate] at hlong
    have hpl : p.length = lead + 1 := Nat.le_antisymm own.bound hlong
    have he := h5 hn' (by omega)
    have hv' : v = head' := by
      have h7 := congrArg (List.drop (lead + 1)) he
      rw [← hpl, List.drop_left, hpl] at h7
      have e : List.replicate lead ' ' ++ ' ' :: v = List.replicate (lead + 1) ' ' ++ v := by
        rw [List.replicate_succ', List.append_assoc]; rfl
      rw [e] at h7
      have h8 : List.drop (lead + 1) (List.replicate (lead + 1) ' ' ++ v) = v := by
        rw [List.drop_append_of_le_length (by simp)]; simp
      rw [h8] at h7
      exact h7
    rw [single _ _ h1, hv']
  · have hlines' : lines (List.replicate lead ' ' ++ ' ' :: v) = [List.replicate lead ' ' ++ ' ' :: v] :=
      lines_unique _ _ (by simp) (by simp [hv]) rfl
    have hg : getIndent (List.replicate lead ' ' ++ ' ' :: v) = [] := by
      refine (getIndent_spec _).2.2 ?_
      rw [hlines']
      intro l hl' h
      rw [List.mem_singleton] at hl'
      subst hl'
      obtain ⟨c, hc, h⟩ := h
      rw [List.mem_append, List.mem_cons] at hc
      rcases hc with hc | rfl | hc
      · rw [List.eq_of_mem_replicate hc] at h; exact absurd h (by decide)
      · exact absurd h (by decide)
      · exact hn ⟨c, hc, h⟩
    have hd : delIndentBy (List.replicate lead ' ' ++ ' ' :: v) [] = List.replicate lead ' ' ++ ' ' :: v := by
      refine single _ _ ?_
      rw [lines_delIndentBy _ _ (by simp), hlines']
      simp [unshift]
    unfold layoutText
    simp only [hg, List.take_nil, hd, List.length_nil, Nat.sub_zero]
    rw [if_pos (by omega)]
    have e1 : List.drop lead (List.replicate lead ' ' ++ ' ' :: v) = ' ' :: v := by
      rw [List.drop_append_of_le_length (by simp)]; simp
    rw [e1]
    simp only [List.take_succ_cons, List.take_zero, if_true]
    have e2 : List.replicate lead ' ' ++ ' ' :: v = List.replicate (lead + 1) ' ' ++ v := by
      rw [List.replicate_succ', List.append_assoc]; rfl
    rw [e2, List.drop_append_of_le_length (by simp)]; simp

/-! ### Escape sequences -/

theorem decode_plain {names : Str → Option Char} {c : Char} {s v : Str} (hc : c ≠ '\\') (h : decodeAux names 0 s = some v) :
    decodeAux names 0 (c :: s) = some (c :: v) := by
  rw [decodeAux, if_neg hc, h]; rfl

theorem decode_backslash {names : Str → Option Char} {s v : Str} (h : decodeAux names 0 s = some v) :
    decodeAux names 0 ('\\' :: '\\' :: s) = some ('\\' :: v) := by
  rw [decodeAux, if_pos rfl]
  have : matchEscape names ('\\' :: s) = some (1, some '\\') := by
    simp [matchEscape, isOctal, singleEscape]
  rw [this]
  simp only [decodeAux, h, Option.map_some]

theorem decode_newline {names : Str → Option Char} {s v : Str} (h : decodeAux names 0 s = some v) :
    decodeAux names 0 ('\\' :: 'n' :: s) = some ('\n' :: v) := by
  rw [decodeAux, if_pos rfl]
  have : matchEscape names ('n' :: s) = some (1, some '\n') := by
    simp [matchEscape, isOctal, singleEscape]
  rw [this]
  simp only [decodeAux, h, Option.map_some]

theorem decode_quote {names : Str → Option Char} {s v : Str} (h : decodeAux names 0 s = some v) :
    decodeAux names 0 ('\\' :: 'x' :: '2' :: '2' :: s) = some ('"' :: v) := by
  rw [decodeAux, if_pos rfl]
  have : matchEscape names ('x' :: '2' :: '2' :: s) = some (3, some '"') := by
    simp [matchEscape, dots, decodeHex, hexValue, hexVal]
    rfl
  rw [this]
  simp only [decodeAux, h, Option.map_some]

/-! ### Pieces -/

section
variable {P X W I J : Type} (E : Env P X W) (σ : StateId) (A : J → Store P W) (b : List (Str × SlotInfo))

/-- The expression, printed in any of the situations `A j`, gives `s j` at any indentation, without side effects. -/
def Prints (e : Expr) (s : J → Str) : Prop :=
  ∀ j i, Evals (eval E σ e >>= STR E) ((A j).setInd σ i) (s j) ((A j).setInd σ i)

/-- Several expressions, analysed and printed. -/
def PrintsAll (I : Type) (es : List Expr) (s : J → Str) : Prop :=
  ∃ es', analyseExprs (I := I) b es = .ok es' ∧ ∀ j i, Evals (evalStrs E σ es') ((A j).setInd σ i) (s j) ((A j).setInd σ i)

variable {E σ A b}

theorem PrintsAll.nil : PrintsAll E σ A b I [] (fun _ => []) := ⟨[], rfl, fun j i => by rw [evalStrs]; exact Evals.pure _ _⟩

theorem PrintsAll.cons {e e' : Expr} {es : List Expr} {s t : J → Str} (h : analyseExpr (I := I) b e = .ok e') (hp : Prints E σ A e' s)
    (ht : PrintsAll E σ A b I es t) : PrintsAll E σ A b I (e :: es) (fun j => s j ++ t j) := by
  obtain ⟨es', h1, h2⟩ := ht
  refine ⟨e' :: es', ?_, fun j i => ?_⟩
  · rw [analyseExprs, h, h1]; rfl
  · rw [evalStrs]
    have := Evals.bind (f := fun s => evalStrs E σ es' >>= fun ss => pure (s ++ ss)) (hp j i) (Evals.bind (h2 j i) (Evals.pure (s j ++ t j) _))
    simpa only [Comp.bind_assoc] using this

theorem prints_static (s : Str) : Prints E σ A (.static s) (fun _ => s) := by
  intro j i
  rw [eval]
  exact Evals.bind (a := Val.str s) (f := STR E) (Evals.pure _ _) (Evals.pure s _)

theorem PrintsAll.static {s : Str} {t : J → Str} {es : List Expr} (ht : PrintsAll E σ A b I es t) :
    PrintsAll E σ A b I (.static s :: es) (fun j => s ++ t j) :=
  .cons (by rw [analyseExpr]; rfl) (prints_static s) ht

variable (E σ A b) (M : Marks) (names : Str → Option Char) (env : J → Str → Str)

/-- The expression can be read, analysed and printed. -/
def Known (I : Type) (x : Str) : Prop :=
  ∃ e e', Written M names 15 x e ∧ analyseExpr (I := I) b e = .ok e' ∧ Prints E σ A (.root none e') (fun j => env j x)

/-- The quotes of a text. -/
def quoteOf (q : Bool) : Option Char := if q then some '"' else none

/-- A text that begins with plain characters. -/
def OpenParts (I : Type) (q : Bool) (t : Str) (v : J → Str) : Prop :=
  ∃ s u t' v' es, t = s ++ t' ∧ v = (fun j => u ++ v' j) ∧ (∀ c ∈ s, plainChar M (quoteOf q) c) ∧
    pieceValue names (quoteOf q) s = some u ∧ Parts M names (quoteOf q) t' es ∧
    (∀ c, t'.head? = some c → c = '$' ∨ c = '{' ∨ c = '}') ∧ PrintsAll E σ A b I es v'

variable {E σ A b M names env}

theorem OpenParts.closed {q : Bool} {t : Str} {v : J → Str} (h : OpenParts E σ A b M names I q t v) :
    ∃ es, Parts M names (quoteOf q) t es ∧ PrintsAll E σ A b I es v := by
  obtain ⟨s, u, t', v', es, rfl, rfl, hs, hu, hp, hh, hv⟩ := h
  by_cases h0 : s = []
  · subst h0
    have : u = [] := by
      cases q with
      | false => simpa [quoteOf, pieceValue] using hu.symm
      | true => simpa [quoteOf, pieceValue, decodeEscapes, decodeAux] using hu.symm
    subst this
    exact ⟨es, hp, hv⟩
  · exact ⟨_, .text h0 hs hu hp hh, hv.static⟩

theorem pieceValue_nil (q : Bool) : pieceValue names (quoteOf q) [] = some [] := by cases q <;> rfl

theorem OpenParts.doubled {q : Bool} {c : Char} {t : Str} {v : J → Str} (hc : c = '$' ∨ c = '{' ∨ c = '}') (h : OpenParts E σ A b M names I q t v) :
    OpenParts E σ A b M names I q (c :: c :: t) (fun j => c :: v j) := by
  obtain ⟨es, h1, h2⟩ := h.closed
  exact ⟨[], [], c :: c :: t, fun j => c :: v j, _, rfl, rfl, by simp, pieceValue_nil q, .doubled hc h1, by
    intro d hd; simp only [List.head?_cons, Option.some.injEq] at hd; subst hd; exact hc, h2.static (s := [c])⟩

theorem OpenParts.push {q : Bool} {w t : Str} {v : J → Str} {c : Char} (hw : ∀ c ∈ w, plainChar M (quoteOf q) c)
    (hd : ∀ s u, pieceValue names (quoteOf q) s = some u → pieceValue names (quoteOf q) (w ++ s) = some (c :: u))
    (h : OpenParts E σ A b M names I q t v) : OpenParts E σ A b M names I q (w ++ t) (fun j => c :: v j) := by
  obtain ⟨s, u, t', v', es, rfl, rfl, hs, hu, hp, hh, hv⟩ := h
  refine ⟨w ++ s, c :: u, t', v', es, by rw [List.append_assoc], rfl, ?_, hd s u hu, hp, hh, hv⟩
  intro d hm
  rcases List.mem_append.1 hm with hm | hm
  · exact hw d hm
  · exact hs d hm

theorem OpenParts.expr {q : Bool} {x t : Str} {v : J → Str} (hx : Known E σ A b M names env I x) (h1 : x.head? ≠ some '{')
    (h2 : ∀ c, t.head? = some c → c ≠ '?' ∧ c ≠ '!') (h : OpenParts E σ A b M names I q t v) :
    OpenParts E σ A b M names I q ('{' :: (x ++ '}' :: t)) (fun j => env j x ++ v j) := by
  obtain ⟨es, h3, h4⟩ := h.closed
  obtain ⟨e, e', hw, ha, hp⟩ := hx
  refine ⟨[], [], _, _, _, rfl, rfl, by simp, pieceValue_nil q,
    .braces (w := []) (w' := []) (by simp [Blanks]) hw (by simp [Blanks]) (fun _ => h1) h3 h2, ?_, .cons ?_ hp h4⟩
  · intro d hd; simp only [List.head?_cons, Option.some.injEq] at hd; subst hd; simp
  · rw [analyseExpr, ha]; rfl

theorem plainChar_of {M : Marks} {q : Bool} {c : Char} (hm : isMark M c = false) (h1 : c ≠ '$' ∧ c ≠ '{' ∧ c ≠ '}') (h2 : c ≠ '\n')
    (h3 : q = true → c ≠ '"') : plainChar M (quoteOf q) c := by
  unfold isMark at hm
  simp only [Bool.or_eq_false_iff, beq_eq_false_iff_ne] at hm
  refine ⟨h1.1, h1.2.1, h1.2.2, h2, ?_, ?_⟩
  · cases q <;> simp [quoteOf]
    exact h3 rfl
  · exact ⟨hm.1.1.1, hm.1.1.2, hm.1.2, hm.2⟩

theorem OpenParts.char {q : Bool} {c : Char} {t : Str} {v : J → Str} (hm : ∀ c, isMark M c = true → 0x2768 ≤ c.toNat) (hc : isMark M c = false)
    (hq : q = false → c ≠ '\n') (h : OpenParts E σ A b M names I q t v) :
    OpenParts E σ A b M names I q (writeChar q c ++ t) (fun j => c :: v j) := by
  have low : ∀ d : Char, d.toNat < 0x2768 → isMark M d = false := by
    intro d hd
    cases h : isMark M d with
    | false => rfl
    | true => have := hm d h; omega
  unfold writeChar
  split
  · rename_i h1; exact h.doubled h1
  · rename_i h1
    rw [not_or, not_or] at h1
    split
    · rename_i h2; obtain ⟨rfl, rfl⟩ := h2
      refine h.push ?_ (fun s u hs => decode_backslash hs)
      intro d hd
      simp only [List.mem_cons, List.not_mem_nil, or_false, or_self] at hd
      subst hd
      exact plainChar_of hc (by decide) (by decide) (fun _ => by decide)
    · split
      · rename_i h2; obtain ⟨rfl, rfl⟩ := h2
        refine h.push ?_ (fun s u hs => decode_quote hs)
        intro d hd
        have hd' : d = '\\' ∨ d = 'x' ∨ d = '2' := by simpa using hd
        rcases hd' with rfl | rfl | rfl <;>
          exact plainChar_of (low _ (by decide)) (by decide) (by decide) (fun _ => by decide)
      · split
        · rename_i h2; obtain ⟨rfl, rfl⟩ := h2
          refine h.push ?_ (fun s u hs => decode_newline hs)
          intro d hd
          have hd' : d = '\\' ∨ d = 'n' := by simpa using hd
          rcases hd' with rfl | rfl <;>
            exact plainChar_of (low _ (by decide)) (by decide) (by decide) (fun _ => by decide)
        · rename_i h2 h3 h4
          refine h.push ?_ ?_
          · intro d hd
            rw [List.mem_singleton] at hd
            subst hd
            refine plainChar_of hc h1 ?_ (fun hq => fun hd => h3 ⟨hq, hd⟩)
            cases q with
            | false => exact hq rfl
            | true => exact fun hd => h4 ⟨rfl, hd⟩
          · intro s u hs
            cases q with
            | false =>
              simp only [quoteOf, pieceValue] at hs ⊢
              simp only [Bool.false_eq_true, if_false, Option.some.injEq] at hs ⊢
              rw [← hs]; rfl
            | true => exact decode_plain (fun hd => h2 ⟨rfl, hd⟩) hs

theorem openParts (q : Bool) (hm : ∀ c, isMark M c = true → 0x2768 ≤ c.toNat) (ps : List Piece)
    (h : PiecesOk M (Known E σ A b M names env I) q ps) : OpenParts E σ A b M names I q (piecesSource q ps) (fun j => piecesValue (env j) ps) := by
  induction ps with
  | nil => exact ⟨[], [], [], fun _ => [], [], rfl, rfl, by simp, pieceValue_nil q, .nil, by simp, .nil⟩
  | cons p ps ih =>
    cases p with
    | lit s =>
      obtain ⟨h1, h2⟩ := h
      have ih := ih h2
      show OpenParts E σ A b M names I q (s.flatMap (writeChar q) ++ piecesSource q ps) (fun j => s ++ piecesValue (env j) ps)
      clear h2
      induction s with
      | nil => exact ih
      | cons c s ihs =>
        rw [List.flatMap_cons, List.append_assoc]
        exact (ihs (fun d hd => h1 d (List.mem_cons_of_mem _ hd))).char hm (h1 c (List.mem_cons_self ..)).1 (h1 c (List.mem_cons_self ..)).2
    | expr x =>
      obtain ⟨h1, h2, h3, h4⟩ := h
      have := OpenParts.expr h1 h2 h3 (ih h4)
      show OpenParts E σ A b M names I q ('{' :: (x ++ ['}']) ++ piecesSource q ps) (fun j => env j x ++ piecesValue (env j) ps)
      simpa using this

/-- The text of pieces is read as parts, which print their value. -/
theorem pieces_parts (q : Bool) (hm : ∀ c, isMark M c = true → 0x2768 ≤ c.toNat) (ps : List Piece)
    (h : PiecesOk M (Known E σ A b M names env I) q ps) :
    ∃ es, Parts M names (quoteOf q) (piecesSource q ps) es ∧ PrintsAll E σ A b I es (fun j => piecesValue (env j) ps) :=
  (openParts q hm ps h).closed

/-- The same after a blank. -/
theorem pieces_blank (hm : ∀ c, isMark M c = true → 0x2768 ≤ c.toNat) (ps : List Piece)
    (h : PiecesOk M (Known E σ A b M names env I) false ps) :
    ∃ es, Parts M names none (' ' :: piecesSource false ps) es ∧ PrintsAll E σ A b I es (fun j => ' ' :: piecesValue (env j) ps) := by
  have low : isMark M ' ' = false := by
    cases h : isMark M ' ' with
    | false => rfl
    | true => exact absurd (hm _ h) (by decide)
  exact ((openParts false hm ps h).char (c := ' ') hm low (fun _ => by decide)).closed

end
end Verif
