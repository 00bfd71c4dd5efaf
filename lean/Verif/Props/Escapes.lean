import Verif.Lemmas.Escapes

/-! Property C20: escape sequences. -/

namespace Verif
open Py Spec

/-- C20. Text without backslashes is unchanged. -/
theorem C20_no_backslash (names : Str → Option Char) (s : Str) (h : '\\' ∉ s) :
    decodeEscapes names s = some s := by
  unfold decodeEscapes
  induction s with
  | nil => rfl
  | cons c s ih =>
    simp only [List.mem_cons, not_or] at h
    simp [decodeAux, Ne.symm h.1, ih h.2]

/-- C20. Any string written with each character in one of its admissible forms (itself, a letter
escape, two, four or eight hexadecimal digits, three octal digits, a Unicode name) is decoded to that
string; the forms can be chosen freely for each character. -/
theorem C20_decode_escaped (names : Str → Option Char) (s : Str) (es : List Str)
    (h : List.Forall₂ (fun c e => Escaped names c e) s es) :
    decodeEscapes names es.flatten = some s := by
  unfold decodeEscapes
  induction h with
  | nil => rfl
  | cons h _ ih => rw [List.flatten_cons, decodeAux_escaped h, ih]; rfl

/-- C20. Every character has an escaped form, so every string can be written. -/
theorem C20_escaped_exists (names : Str → Option Char) (s : Str) :
    ∃ es, List.Forall₂ (fun c e => Escaped names c e) s es := by
  induction s with
  | nil => exact ⟨[], .nil⟩
  | cons c s ih =>
    obtain ⟨es, h⟩ := ih
    by_cases hc : c = '\\'
    · exact ⟨_, .cons (.letter (l := '\\') (by rw [hc]; decide)) h⟩
    · exact ⟨_, .cons (.plain hc) h⟩

/-- C20. A backslash that starts no escape sequence stays as it is, together with what follows. -/
theorem C20_other_backslash (names : Str → Option Char) (c : Char) (s : Str)
    (h : c ∉ (s!!"UuxN01234567\\'\"abfnrtv")) :
    decodeEscapes names ('\\' :: c :: s) = (decodeEscapes names s).map (fun r => '\\' :: c :: r) := by
  simp only [List.mem_cons, List.not_mem_nil, or_false, not_or] at h
  obtain ⟨h1, h2, h3, h4, o0, o1, o2, o3, o4, o5, o6, o7, e1, e2, e3, e4, e5, e6, e7, e8, e9, e10⟩ := h
  have ho : isOctal c = false := by
    cases hb : isOctal c with
    | false => rfl
    | true =>
      exfalso
      unfold isOctal at hb
      simp only [Bool.and_eq_true, decide_eq_true_eq] at hb
      have hc : ∀ d : Char, c ≠ d → c.toNat ≠ d.toNat := by
        intro d hd e
        exact hd (Char.ext (UInt32.toNat_inj.1 e))
      have := hc _ o0; have := hc _ o1; have := hc _ o2; have := hc _ o3
      have := hc _ o4; have := hc _ o5; have := hc _ o6; have := hc _ o7
      have t0 : '0'.toNat = 48 := rfl
      have t1 : '1'.toNat = 49 := rfl
      have t2 : '2'.toNat = 50 := rfl
      have t3 : '3'.toNat = 51 := rfl
      have t4 : '4'.toNat = 52 := rfl
      have t5 : '5'.toNat = 53 := rfl
      have t6 : '6'.toNat = 54 := rfl
      have t7 : '7'.toNat = 55 := rfl
      omega
  have hm : matchEscape names (c :: s) = none := by
    simp [matchEscape, h1, h2, h3, h4, ho, singleEscape, e1, e2, e3, e4, e5, e6, e7, e8, e9, e10]
  unfold decodeEscapes
  simp only [decodeAux, if_true, hm, e1, if_false]
  cases decodeAux names 0 s <;> rfl

/-- What the decoder takes for a digit is one. -/
theorem hexDigit_of_val {c : Char} {k : Nat} (h : hexVal c = some k) : HexDigit c k := by
  have hall : ∀ n, n < 103 → ∀ k, k < 16 → hexVal (Char.ofNat n) = some k → HexDigit (Char.ofNat n) k := by
    unfold HexDigit
    decide +kernel
  have hc : Char.ofNat c.toNat = c := Char.ofNat_toNat c
  have hb : c.toNat < 103 ∧ k < 16 := by
    simp only [hexVal] at h
    repeat' split at h
    all_goals simp only [Option.some.injEq, reduceCtorEq] at h
    all_goals omega
  have := hall c.toNat hb.1 k hb.2
  rw [hc] at this
  exact this h

/-- C20. A hexadecimal escape must be complete within its line: otherwise it stays as it is. -/
theorem C20_incomplete (names : Str → Option Char) (c : Char) (n : Nat) (s : Str) (hc : (c, n) ∈ [('U', 8), ('u', 4), ('x', 2)])
    (h : s.length < n ∨ '\n' ∈ s.take n) :
    decodeEscapes names ('\\' :: c :: s) = (decodeEscapes names s).map (fun r => '\\' :: c :: r) := by
  have hd : (dots n s).isSome = false := by
    unfold dots
    rcases h with h | h
    · simp; omega
    · simp [h]
  have hm : matchEscape names (c :: s) = none ∧ c ≠ '\\' := by
    simp only [List.mem_cons, Prod.mk.injEq, List.not_mem_nil, or_false] at hc
    rcases hc with ⟨rfl, rfl⟩ | ⟨rfl, rfl⟩ | ⟨rfl, rfl⟩ <;> simp [matchEscape, hd, singleEscape, isOctal]
  unfold decodeEscapes
  simp only [decodeAux, if_true, hm.1, hm.2, if_false]
  cases decodeAux names 0 s <;> rfl

/-- C20. A complete one that has a character other than a digit is an error. -/
theorem C20_invalid (names : Str → Option Char) (c : Char) (n : Nat) (ds s : Str) (hc : (c, n) ∈ [('U', 8), ('u', 4), ('x', 2)])
    (hl : ds.length = n) (hn : '\n' ∉ ds) (d : Char) (hd : d ∈ ds) (hx : ∀ k, ¬ HexDigit d k) :
    decodeEscapes names ('\\' :: c :: (ds ++ s)) = none := by
  have hdots : (dots n (ds ++ s)).isSome = true := by
    unfold dots
    simp [← hl, hn]
  have ht : (ds ++ s).take n = ds := by simp [← hl]
  have hv : hexVal d = none := by
    have hle : ∀ k, hexVal d = some k → HexDigit d k := fun k hk => hexDigit_of_val hk
    cases hk : hexVal d with
    | none => rfl
    | some k => exact absurd (hle k hk) (hx k)
  have hz : decodeHex ds = none := by
    have : ∀ (l : Str) (acc : Nat), d ∈ l → hexValue acc l = none := by
      intro l
      induction l with
      | nil => intro acc h; cases h
      | cons e l ih =>
        intro acc h
        simp only [hexValue]
        rcases List.mem_cons.1 h with rfl | h
        · rw [hv]
        · cases hexVal e with
          | none => rfl
          | some v => exact ih _ h
    simp only [decodeHex, this ds 0 hd, Option.bind_none]
  have hm : ∃ k, matchEscape names (c :: (ds ++ s)) = some (k, none) := by
    simp only [List.mem_cons, Prod.mk.injEq, List.not_mem_nil, or_false] at hc
    rcases hc with ⟨rfl, rfl⟩ | ⟨rfl, rfl⟩ | ⟨rfl, rfl⟩ <;> simp [matchEscape, hdots, ht, hz]
  obtain ⟨k, hm⟩ := hm
  unfold decodeEscapes
  simp only [decodeAux, if_true, hm]

example : decodeEscapes (fun n => if n = s!!"BULLET" then some '\u2022' else none)
    (s!!"a\\n\\\\\\x41\\u00e9\\101\\N{BULLET}\\q") = some (s!!"a\n\\A\u00e9A\u2022\\q") := by decide
example : Escaped (fun _ => none) 'A' (s!!"\\x41") :=
  .hex2 rfl (.snoc (.snoc .nil (by simp [HexDigit]) (d := 4)) (by simp [HexDigit]) (d := 1))

end Verif
