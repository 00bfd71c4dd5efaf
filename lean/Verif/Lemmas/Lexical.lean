import Verif.Lemmas.Builds
import Verif.Spec.Written

/-! Tokens: blanks, names, numbers. -/

namespace Verif
open Py Spec

/-! Regular expressions -/

theorem RE.match?_seq {a b : RE} {s m r : Str} (ha : a.match? s = some m) (hb : b.match? m = some r) :
    (RE.seq a b).match? s = some r := by
  simp only [RE.match?, RE.rests] at *
  cases h : a.rests s with
  | nil => rw [h] at ha; cases ha
  | cons x xs =>
    rw [h] at ha
    simp only [List.head?_cons, Option.some.injEq] at ha
    subst ha
    cases h' : b.rests x with
    | nil => rw [h'] at hb; cases hb
    | cons y ys =>
      rw [h'] at hb
      simpa [h'] using hb

theorem RE.match?_left {a b : RE} {s r : Str} (ha : a.match? s = some r) :
    (RE.alt a b).match? s = some r := by
  simp only [RE.match?, RE.rests] at *
  cases h : a.rests s with
  | nil => rw [h] at ha; cases ha
  | cons x xs => rw [h] at ha; simpa using ha

theorem RE.match?_right {a b : RE} {s : Str} (ha : a.match? s = none) :
    (RE.alt a b).match? s = b.match? s := by
  simp only [RE.match?, RE.rests] at *
  cases h : a.rests s with
  | nil => simp
  | cons x xs => rw [h] at ha; cases ha

theorem RE.match?_seq_none {a b : RE} {s : Str} (ha : a.match? s = none) :
    (RE.seq a b).match? s = none := by
  simp only [RE.match?, RE.rests] at *
  cases h : a.rests s with
  | nil => simp
  | cons x xs => rw [h] at ha; cases ha

theorem RE.match?_many {p : Char → Bool} {x rest : Str} (hx : ∀ c ∈ x, p c = true)
    (hr : inClass p rest.head? = false) : (RE.many p).match? (x ++ rest) = some rest := by
  simp only [RE.match?, RE.rests]
  induction x with
  | nil =>
    cases rest with
    | nil => rfl
    | cons c s =>
      simp only [List.head?_cons, inClass] at hr
      simp [manyRests, hr]
  | cons c x ih =>
    simp only [List.cons_append, manyRests, hx c (by simp), if_true]
    have := ih (fun d hd => hx d (by simp [hd]))
    cases h : manyRests p (x ++ rest) with
    | nil => rw [h] at this; cases this
    | cons y ys => rw [h] at this; simpa using this

theorem RE.match?_many1 {p : Char → Bool} {x rest : Str} (hne : x ≠ []) (hx : ∀ c ∈ x, p c = true)
    (hr : inClass p rest.head? = false) : (RE.many1 p).match? (x ++ rest) = some rest := by
  cases x with
  | nil => exact absurd rfl hne
  | cons c x =>
    refine RE.match?_seq (m := x ++ rest) ?_ (RE.match?_many (fun d hd => hx d (by simp [hd])) hr)
    simp [RE.match?, RE.rests, hx c (by simp)]

theorem RE.match?_word (x rest : Str) : (RE.word x).match? (x ++ rest) = some rest := by
  induction x with
  | nil => rfl
  | cons c x ih =>
    refine RE.match?_seq (m := x ++ rest) ?_ ih
    simp [RE.match?, RE.rests]

theorem RE.match?_word_none {x s : Str} (h : x.isPrefixOf s = false) : (RE.word x).match? s = none := by
  induction x generalizing s with
  | nil => simp at h
  | cons c x ih =>
    cases s with
    | nil => rfl
    | cons d s =>
      simp only [List.isPrefixOf, Bool.and_eq_false_iff, beq_eq_false_iff_ne] at h
      by_cases hcd : c = d
      · subst hcd
        have := ih (s := s) (by simpa using h)
        simp only [RE.match?] at this
        simp only [RE.match?, RE.word, RE.rests, beq_self_eq_true, if_true, List.flatMap_cons, List.flatMap_nil,
          List.append_nil]
        exact this
      · refine RE.match?_seq_none ?_
        simp [RE.match?, RE.rests, Ne.symm hcd]

section
variable {M : Marks} {U : Uni} {P : Type} {names : Str → Option Char} {full : Str} {k : Nat}

/-! Success and failure -/

/-- `p` consumes `x`. -/
def Eats (M : Marks) (U : Uni) (p : Peg NT) (x rest : Str) : Prop := ∃ t, Yields (rule M U) p (x ++ rest) t rest

theorem Builds.eats {p : Peg NT} {x rest : Str} {bs : List (Built P)}
    (h : Builds M U P names full k p x rest bs) : Eats M U p x rest := ⟨_, h.choose_spec.1⟩

theorem Fails.seq1 {p : Peg NT} {ps : List (Peg NT)} {s : Str} (h : Fails (rule M U) p s) :
    Fails (rule M U) (.seq (p :: ps)) s := .seq (.head h)

theorem FailsSeq.after {p : Peg NT} {ps : List (Peg NT)} {x rest s : Str} (h : Eats M U p x rest)
    (h' : FailsSeq (rule M U) ps rest) (hs : s = x ++ rest := by rfl) : FailsSeq (rule M U) (p :: ps) s := by
  subst hs
  obtain ⟨t, h⟩ := h
  exact .tail h h'

theorem Fails.seq2 {p q : Peg NT} {ps : List (Peg NT)} {x rest s : Str} (h : Eats M U p x rest)
    (h' : Fails (rule M U) q rest) (hs : s = x ++ rest := by rfl) : Fails (rule M U) (.seq (p :: q :: ps)) s :=
  .seq (.after h (.head h') hs)

theorem Fails.lit_ne {l s : Str} (h : l.isPrefixOf s = false) : Fails (rule M U) (.lit l) s := .lit h

theorem Fails.not_of {p : Peg NT} {x rest s : Str} (h : Eats M U p x rest) (hs : s = x ++ rest := by rfl) :
    Fails (rule M U) (.not p) s := by
  subst hs
  obtain ⟨t, f, h⟩ := h
  exact ⟨f + 1, by simp [run, h, wrapNot]⟩

theorem Eats.opt_none {p : Peg NT} {s : Str} (h : Fails (rule M U) p s) : Eats M U (.opt p) [] s :=
  ⟨_, .opt_none h⟩

/-! Blanks -/

theorem inClass_false {p : Char → Bool} {s : Str} (h : ∀ c, s.head? = some c → p c = false) :
    inClass p s.head? = false := by
  cases hs : s.head? with
  | none => rfl
  | some c => exact h c hs

/-- The text does not begin with a blank. -/
def NoBlank (s : Str) : Prop := ∀ c, s.head? = some c → isBlank c = false

theorem Spec.Blanks.isBlank {w : Str} (h : Blanks w) : ∀ c ∈ w, isBlank c = true := by
  intro c hc
  rcases h c hc with rfl | rfl <;> rfl

theorem Spec.Blanks.nil : Blanks [] := by intro c hc; cases hc

theorem Builds.ws {w rest : Str} (hw : Blanks w) (hr : NoBlank rest) :
    Builds M U P names full k (.ref .ws) w rest [] :=
  Builds.ignored (n := .ws) rfl (Yields.rx (RE.match?_many hw.isBlank (inClass_false hr)))

theorem Builds.space {w rest : Str} (hw : Blanks w) (hne : w ≠ []) (hr : NoBlank rest) :
    Builds M U P names full k (.ref .space) w rest [] :=
  Builds.ignored (n := .space) rfl (Yields.rx (RE.match?_many1 hne hw.isBlank (inClass_false hr)))

theorem Eats.ws {w rest : Str} (hw : Blanks w) (hr : NoBlank rest) : Eats M U (.ref .ws) w rest :=
  ⟨_, .ref (Yields.rx (RE.match?_many hw.isBlank (inClass_false hr)))⟩

theorem Eats.space {w rest : Str} (hw : Blanks w) (hne : w ≠ []) (hr : NoBlank rest) :
    Eats M U (.ref .space) w rest :=
  ⟨_, .ref (Yields.rx (RE.match?_many1 hne hw.isBlank (inClass_false hr)))⟩

theorem Fails.space {s : Str} (h : NoBlank s) : Fails (rule M U) (.ref .space) s := by
  refine .ref (.rx ?_)
  refine RE.match?_seq_none ?_
  cases s with
  | nil => rfl
  | cons c s => simp [RE.match?, RE.rests, h c rfl]

theorem NoBlank.cons {c : Char} {s : Str} (h : isBlank c = false) : NoBlank (c :: s) := by
  intro d hd
  simp only [List.head?_cons, Option.some.injEq] at hd
  rw [← hd]; exact h

/-! Names -/

theorem nameChar_reWord {c : Char} (h : nameChar c = true) : reWord U c = true := by
  simp only [nameChar, Bool.or_eq_true] at h
  simp only [reWord, Bool.or_eq_true]
  rcases h with (h | h) | h <;> simp [h]

/-- A text in which a name ends. -/
def NameEnd (s : Str) : Prop := ∀ c, s.head? = some c → nameChar c = false

theorem reserved_chars : ∀ w ∈ reservedNames, w ≠ [] ∧ ∀ c ∈ w, nameChar c = true := by decide

theorem alts_none {ws : List Str} {b : RE} {s : Str} (h : ∀ w ∈ ws, w.isPrefixOf s = true →
    b.rests (s.drop w.length) = []) :
    (RE.seq (RE.alts (ws.map RE.word)) b).rests s = [] := by
  have key : ∀ w : Str, (RE.word w).rests s = if w.isPrefixOf s then [s.drop w.length] else [] := by
    intro w
    clear h
    induction w generalizing s with
    | nil => simp [RE.word, RE.rests]
    | cons c w ih =>
      cases s with
      | nil => simp [RE.word, RE.rests]
      | cons d s =>
        simp only [RE.word, RE.rests, List.isPrefixOf, List.length_cons, List.drop_succ_cons]
        by_cases hcd : d = c
        · subst hcd; simp [ih]
        · have : (c == d) = false := by simpa using Ne.symm hcd
          simp [hcd, this]
  have : ∀ r ∈ (RE.alts (ws.map RE.word)).rests s, b.rests r = [] := by
    intro r hr
    induction ws with
    | nil => cases s <;> simp [RE.alts, RE.rests] at hr
    | cons w ws ih =>
      have hw : ∀ r ∈ (RE.word w).rests s, b.rests r = [] := by
        intro r hr
        rw [key] at hr
        split at hr
        · rename_i hp
          simp only [List.mem_singleton] at hr
          rw [hr]; exact h w (by simp) hp
        · cases hr
      cases ws with
      | nil => exact hw r (by simpa [RE.alts] using hr)
      | cons w' ws =>
        simp only [List.map_cons, RE.alts, RE.rests, List.mem_append] at hr
        rcases hr with hr | hr
        · exact hw r hr
        · exact ih (fun w hw => h w (by simp [hw])) (by simpa [List.map_cons] using hr)
  simp only [RE.rests, List.flatMap_eq_nil_iff]
  exact this

theorem not_reserved {n rest : Str} (hn : ∀ c ∈ n, nameChar c = true) (hr : n ∉ reservedNames)
    (he : NameEnd rest) : (reReserved U).match? (n ++ rest) = none := by
  simp only [RE.match?, reReserved]
  rw [alts_none]
  · rfl
  intro w hw hp
  obtain ⟨hne, hc⟩ := reserved_chars w hw
  have hp : w <+: n ++ rest := by simpa using hp
  by_cases hl : w.length ≤ n.length
  · have hwn : w <+: n := List.prefix_of_prefix_length_le hp (List.prefix_append _ _) hl
    obtain ⟨m, rfl⟩ := hwn
    cases m with
    | nil => exact absurd (by simpa using hw) hr
    | cons c m =>
      have : reWord U c = true := nameChar_reWord (hn c (by simp))
      simp [RE.rests, this]
  · exfalso
    have hnw : n <+: w := List.prefix_of_prefix_length_le (List.prefix_append _ _) hp (by omega)
    obtain ⟨m, rfl⟩ := hnw
    cases m with
    | nil => simp at hl
    | cons c m =>
      have : (c :: m) <+: rest := by
        obtain ⟨u, hu⟩ := hp
        exact ⟨u, by simpa using hu⟩
      obtain ⟨u, rfl⟩ := this
      have h1 := he c rfl
      have h2 := hc c (by simp)
      rw [h1] at h2; cases h2

theorem Builds.name {n rest : Str} (hn : Name n) (he : NameEnd rest) :
    Builds M U P names full k (.ref .name_id) n rest [.str .name_id n] := by
  refine Builds.plain (bs := []) ?_ rfl
  refine Builds.seq ?_
  refine BuildsSeq.cons (x := []) (y := n) (bs := []) (cs := []) ?_ ?_
  · exact Builds.not (.ref (.rx (not_reserved hn.chars hn.notReserved he)))
  · refine BuildsSeq.cons (x := n) (y := []) (bs := []) (cs := []) ?_ (.nil _) (by simp)
    refine Builds.rx ?_
    obtain ⟨c, s, rfl, hc, _⟩ := hn.start
    refine RE.match?_seq (m := s ++ rest) ?_ (RE.match?_many (fun d hd => hn.chars d (by simp [hd]))
      (inClass_false he))
    simp [RE.match?, RE.rests, hc]

theorem reserved_prefix : ∀ v ∈ reservedNames, ∀ w ∈ reservedNames, v.isPrefixOf w = true → v = w := by decide

theorem Fails.name_reserved {w s : Str} {c : Char} (hw : w ∈ reservedNames) (hc : reWord U c = false)
    (hs : s.head? = some c ∨ s = []) : Fails (rule M U) (.ref .name_id) (w ++ s) := by
  refine .ref (.seq (.head (.not_of (x := w) (rest := s) ?_)))
  refine ⟨_, .ref (.rx ?_)⟩
  have hb : (RE.bound (reWord U)).match? s = some s := by
    rcases hs with hs | rfl
    · simp [RE.match?, RE.rests, hs, hc]
    · rfl
  refine RE.match?_seq (m := s) ?_ hb
  have : ∀ ws : List Str, w ∈ ws → (∀ v ∈ ws, v <+: w ++ s → v = w) →
      (RE.alts (ws.map RE.word)).match? (w ++ s) = some s := by
    intro ws
    induction ws with
    | nil => intro h; cases h
    | cons v ws ih =>
      intro hm hu
      by_cases hv : v = w
      · subst hv
        cases ws with
        | nil => exact RE.match?_word _ _
        | cons v' ws => exact RE.match?_left (RE.match?_word _ _)
      · have hm' : w ∈ ws := by
          rcases List.mem_cons.1 hm with h | h
          · exact absurd h.symm hv
          · exact h
        cases ws with
        | nil => cases hm'
        | cons v' ws =>
          simp only [List.map_cons, RE.alts]
          rw [RE.match?_right]
          · exact ih hm' (fun x hx => hu x (by simp [List.mem_cons.1 hx]))
          · refine RE.match?_word_none ?_
            cases hp : v.isPrefixOf (w ++ s) with
            | false => rfl
            | true => exact absurd (hu v (by simp) (by simpa using hp)) hv
  refine this _ hw ?_
  intro v hv hp
  by_cases hl : v.length ≤ w.length
  · exact reserved_prefix v hv w hw
      (by simpa using List.prefix_of_prefix_length_le hp (List.prefix_append _ _) hl)
  · exfalso
    have hwv : w <+: v := List.prefix_of_prefix_length_le (List.prefix_append _ _) hp (by omega)
    obtain ⟨m, rfl⟩ := hwv
    cases m with
    | nil => simp at hl
    | cons d m =>
      have h1 : (d :: m) <+: s := by
        obtain ⟨u, hu⟩ := hp
        exact ⟨u, by simpa using hu⟩
      obtain ⟨u, rfl⟩ := h1
      have h2 : nameChar d = true := (reserved_chars _ hv).2 d (by simp)
      have h3 := nameChar_reWord (U := U) h2
      rcases hs with hs | hs
      · simp only [List.cons_append, List.head?_cons, Option.some.injEq] at hs
        rw [hs, hc] at h3; cases h3
      · cases hs

end
end Verif
