import Verif.Model.Escapes
import Verif.Spec.Escapes
import Verif.Lemmas.Builtins2

/-! Helper lemmas for escape sequences. -/

namespace Verif
open Py Spec

theorem hexVal_of_digit {c : Char} {d : Nat} (h : HexDigit c d) : hexVal c = some d ∧ c ≠ '\n' := by
  have hd : d < 16 := by
    rcases h with h | h
    · exact (List.getElem?_eq_some_iff.1 h).1
    · exact (List.getElem?_eq_some_iff.1 h).1
  have : ∀ d < 16, ∀ c, ((s!!"0123456789abcdef")[d]? = some c ∨
      (s!!"0123456789ABCDEF")[d]? = some c) → hexVal c = some d ∧ c ≠ '\n' := by
    intro d hd c h
    rcases h with h | h
    all_goals
      rw [List.getElem?_eq_some_iff] at h
      obtain ⟨h1, h2⟩ := h
      rw [← h2]
      clear h2
      revert d
      decide
  exact this d hd c h

theorem hexValue_append (acc : Nat) (ds : Str) (c : Char) :
    hexValue acc (ds ++ [c]) = (hexValue acc ds).bind (fun n => (hexVal c).map (n * 16 + ·)) := by
  induction ds generalizing acc with
  | nil => simp only [List.nil_append, hexValue, Option.bind_some]; cases hexVal c <;> rfl
  | cons d ds ih =>
    simp only [List.cons_append, hexValue]
    cases hexVal d with
    | none => rfl
    | some v => exact ih _

theorem hexValue_numeral {ds : Str} {n : Nat} (h : Numeral 16 HexDigit ds n) :
    hexValue 0 ds = some n ∧ '\n' ∉ ds := by
  induction h with
  | nil => exact ⟨rfl, by simp⟩
  | snoc _ hd ih =>
    obtain ⟨h1, h2⟩ := hexVal_of_digit hd
    refine ⟨?_, ?_⟩
    · rw [hexValue_append, ih.1]; simp [h1]
    · simp [ih.2, Ne.symm h2]

theorem chr_toNat (c : Char) : chr c.toNat = some c := by
  unfold chr
  have h : c.toNat.isValidChar := c.valid
  rw [dif_pos h]
  congr 1

theorem decodeHex_numeral {ds : Str} {c : Char} (h : Numeral 16 HexDigit ds c.toNat) :
    decodeHex ds = some c := by
  unfold decodeHex
  rw [(hexValue_numeral h).1]
  exact chr_toNat c

theorem octal_of_digit {c : Char} {d : Nat} (h : OctDigit c d) :
    isOctal c = true ∧ c.toNat - 48 = d := by
  obtain ⟨h1, h2⟩ := List.getElem?_eq_some_iff.1 h
  rw [← h2]
  clear h2 h
  revert d
  decide

theorem octal_numeral {ds : Str} {n : Nat} (h : Numeral 8 OctDigit ds n) :
    ds.foldl (fun a d => a * 8 + (d.toNat - 48)) 0 = n ∧ ∀ c ∈ ds, isOctal c = true := by
  induction h with
  | nil => simp
  | @snoc ds n c d _ hd ih =>
    obtain ⟨h1, h2⟩ := octal_of_digit hd
    refine ⟨?_, ?_⟩
    · rw [List.foldl_append, ih.1]; simp [h2]
    · intro e he
      rcases List.mem_append.1 he with he | he
      · exact ih.2 e he
      · simp only [List.mem_singleton] at he; rw [he]; exact h1

theorem decodeAux_skip (names : Str → Option Char) (k : Nat) (s : Str) :
    decodeAux names k s = decodeAux names 0 (s.drop k) := by
  induction s generalizing k with
  | nil => simp [decodeAux]
  | cons c s ih =>
    cases k with
    | zero => rfl
    | succ k => simp only [decodeAux, List.drop_succ_cons]; exact ih k

theorem dots_digits {n : Nat} {ds t : Str} (hl : ds.length = n) (hn : '\n' ∉ ds) :
    dots n (ds ++ t) = some ds := by
  unfold dots
  have : (ds ++ t).take n = ds := by rw [← hl]; simp
  simp only [this, hl]
  simp [hn]

theorem decodeAux_match {names : Str → Option Char} {e t : Str} {k : Nat} {c : Char}
    (h : matchEscape names (e ++ t) = some (k, some c)) (hk : k = e.length) :
    decodeAux names 0 ('\\' :: e ++ t) = (decodeAux names 0 t).map (c :: ·) := by
  simp only [List.cons_append, decodeAux, if_true, h]
  rw [decodeAux_skip, hk]
  simp

/-- One escaped character at the front is decoded to that character, whatever follows. -/
theorem decodeAux_escaped {names : Str → Option Char} {c : Char} {e : Str} (h : Escaped names c e)
    (t : Str) : decodeAux names 0 (e ++ t) = (decodeAux names 0 t).map (c :: ·) := by
  cases h with
  | plain hc => simp [decodeAux, hc]
  | @letter l h =>
    have : ∀ p ∈ letterEscapes, (p.1 ≠ 'U' ∧ p.1 ≠ 'u' ∧ p.1 ≠ 'x' ∧ isOctal p.1 = false ∧
        p.1 ≠ 'N' ∧ singleEscape p.1 = some p.2) := by decide
    obtain ⟨h1, h2, h3, h4, h5, h6⟩ := this _ h
    refine decodeAux_match (e := [l]) (k := 1) ?_ rfl
    simp only [List.cons_append, List.nil_append, matchEscape]
    dsimp only at h1 h2 h3 h4 h5 h6
    simp [h1, h2, h3, h4, h5, h6]
  | @hex2 ds hl hn =>
    refine decodeAux_match (e := 'x' :: ds) (k := 3) ?_ (by simp [hl])
    simp only [List.cons_append, matchEscape]
    have h1 := dots_digits (t := t) hl (hexValue_numeral hn).2
    have h2 : (ds ++ t).take 2 = ds := by rw [← hl]; simp
    simp [h1, h2, decodeHex_numeral hn]
  | @hex4 ds hl hn =>
    refine decodeAux_match (e := 'u' :: ds) (k := 5) ?_ (by simp [hl])
    simp only [List.cons_append, matchEscape]
    have h1 := dots_digits (t := t) hl (hexValue_numeral hn).2
    have h2 : (ds ++ t).take 4 = ds := by rw [← hl]; simp
    simp [h1, h2, decodeHex_numeral hn]
  | @hex8 ds hl hn =>
    refine decodeAux_match (e := 'U' :: ds) (k := 9) ?_ (by simp [hl])
    simp only [List.cons_append, matchEscape]
    have h1 := dots_digits (t := t) hl (hexValue_numeral hn).2
    have h2 : (ds ++ t).take 8 = ds := by rw [← hl]; simp
    simp [h1, h2, decodeHex_numeral hn]
  | @oct3 ds hl hn =>
    obtain ⟨h1, h2⟩ := octal_numeral hn
    refine decodeAux_match (k := 3) ?_ hl.symm
    match ds, hl with
    | [d1, d2, d3], _ =>
      have o1 := h2 d1 (by simp)
      have o2 := h2 d2 (by simp)
      have o3 := h2 d3 (by simp)
      have n1 : d1 ≠ 'U' := by rintro rfl; revert o1; decide
      have n2 : d1 ≠ 'u' := by rintro rfl; revert o1; decide
      have n3 : d1 ≠ 'x' := by rintro rfl; revert o1; decide
      simp only [List.cons_append, List.nil_append, matchEscape, n1, n2, n3, false_and, if_false, o1,
        if_true]
      have e : ((d2 :: d3 :: t).take 2).takeWhile isOctal = [d2, d3] := by simp [o2, o3]
      rw [e, h1, chr_toNat]
      rfl
  | @name nm h1 h2 h3 =>
    have h4 := takeWhile_gap (p := (· != '}')) (g := nm) (t := '}' :: t)
      (fun c hc => by
        have : c ≠ '}' := fun e => h2 (e ▸ hc)
        simpa using this) (by simp)
    have e1 : (s!!"\\N{") ++ nm ++ ['}'] ++ t = '\\' :: (s!!"N{" ++ nm ++ ['}']) ++ t := by simp
    rw [e1]
    refine decodeAux_match (k := nm.length + 3) ?_ (by simp)
    have e2 : (s!!"N{" ++ nm ++ ['}']) ++ t = 'N' :: '{' :: (nm ++ '}' :: t) := by simp
    rw [e2]
    have ho : isOctal 'N' = false := by decide
    simp [matchEscape, h4.1, h1, h3, ho]

end Verif
