import Verif.Lemmas.Joining
import Verif.Lemmas.Texts

/-! All rules of the grammar are steady, except for `document` and the marks. -/

namespace Verif
open Py Spec

section
variable {M : Marks} {U : Uni} {t : Str}

/-- No class of the expression contains a newline or a mark. -/
def RE.NoEol (M : Marks) : RE → Prop
  | .eps => True
  | .chr p => ∀ c, EolChar M c → p c = false
  | .many p => ∀ c, EolChar M c → p c = false
  | .seq a b => RE.NoEol M a ∧ RE.NoEol M b
  | .alt a b => RE.NoEol M a ∧ RE.NoEol M b
  | .bound w => ∀ c, EolChar M c → w c = false

theorem RE.NoEol.calm : ∀ {r : RE}, RE.NoEol M r → r.Calm
  | .eps, _ => trivial
  | .chr _, h => h _ (.inl rfl)
  | .many _, h => h _ (.inl rfl)
  | .seq _ _, h => ⟨RE.NoEol.calm h.1, RE.NoEol.calm h.2⟩
  | .alt _ _, h => ⟨RE.NoEol.calm h.1, RE.NoEol.calm h.2⟩
  | .bound _, h => h _ (.inl rfl)

theorem RE.NoEol.noMark : ∀ {r : RE}, RE.NoEol M r → RE.NoMark M r
  | .eps, _ => trivial
  | .chr _, h => fun c hc => h c (.inr hc)
  | .many _, h => fun c hc => h c (.inr hc)
  | .seq _ _, h => ⟨RE.NoEol.noMark h.1, RE.NoEol.noMark h.2⟩
  | .alt _ _, h => ⟨RE.NoEol.noMark h.1, RE.NoEol.noMark h.2⟩
  | .bound _, _ => trivial

theorem RE.NoEol.ok {r : RE} (h : RE.NoEol M r) (l : Need) : RxOk M t l r := fun a _ _ =>
  ⟨RE.match?_append h.calm a, fun _ hx => RE.match?_net h.noMark hx⟩

theorem RE.NoEol.word {w : Str} (h : ∀ c ∈ w, ¬ EolChar M c) : RE.NoEol M (RE.word w) := by
  induction w with
  | nil => exact trivial
  | cons c w ih =>
    refine ⟨?_, ih (fun d hd => h d (List.mem_cons_of_mem _ hd))⟩
    intro d hd
    simp only [beq_eq_false_iff_ne]
    rintro rfl
    exact h d List.mem_cons_self hd

theorem RE.NoEol.alts : ∀ {rs : List RE}, (∀ r ∈ rs, RE.NoEol M r) → RE.NoEol M (RE.alts rs)
  | [], _ => fun _ _ => rfl
  | [r], h => h r List.mem_cons_self
  | r :: r' :: rs, h =>
    ⟨h r List.mem_cons_self, RE.NoEol.alts (rs := r' :: rs) (fun x hx => h x (List.mem_cons_of_mem _ hx))⟩

theorem RE.NoEol.many1 {p : Char → Bool} (h : ∀ c, EolChar M c → p c = false) : RE.NoEol M (RE.many1 p) :=
  ⟨h, h⟩

theorem RE.NoEol.opt {r : RE} (h : RE.NoEol M r) : RE.NoEol M (RE.opt r) := ⟨h, trivial⟩

variable [hM : MarksApart M U]

/-- A character below the marks that is not the newline. -/
def lowChar (c : Char) : Bool := c.toNat != 10 && c.toNat < 0x2768

include hM in
variable (U) in
theorem lowChar.not {c : Char} (h : lowChar c = true) : ¬ EolChar M c := by
  intro he
  simp only [lowChar, Bool.and_eq_true, bne_iff_ne, decide_eq_true_eq] at h
  exact he.ne U h rfl

include hM in
variable (U) in
theorem lowChar.word {w : Str} (h : w.all lowChar = true) : RE.NoEol M (RE.word w) :=
  .word (fun c hc => lowChar.not U (List.all_eq_true.1 h c hc))

include hM in
variable (U) in
theorem lowChar.lit {w : Str} (h : w.all lowChar = true) : LitOk M w := by
  intro c hc
  have := lowChar.not (M := M) U (List.all_eq_true.1 h c hc)
  refine ⟨fun e => this (.inl e), ?_⟩
  cases hm : isMark M c with
  | false => rfl
  | true => exact absurd (.inr hm) this

include hM in
variable (U) in
theorem lowChar.class {p : Char → Bool} (h : ∀ c, p c = true → lowChar c = true) (c : Char) (hc : EolChar M c) :
    p c = false := by
  cases hp : p c with
  | false => rfl
  | true => exact absurd hc (lowChar.not U (h c hp))

include hM in
variable (U) in
theorem reInplace_ok (l : Need) : RxOk M t l reInplace := by
  refine RE.NoEol.ok (RE.NoEol.alts ?_) l
  simp only [List.forall_mem_cons, List.not_mem_nil, false_implies, implies_true, and_true]
  refine ⟨lowChar.word U rfl, lowChar.word U rfl, lowChar.word U rfl, lowChar.word U rfl, ?_⟩
  refine lowChar.class U (fun c hc => ?_)
  simp only [List.elem_eq_mem, List.mem_cons, List.not_mem_nil, or_false, decide_eq_true_eq] at hc
  rcases hc with rfl | rfl | rfl | rfl | rfl | rfl | rfl <;> rfl

include hM in
variable (U) in
theorem reComment_ok (l : Need) : RxOk M t l reComment := by
  refine RE.NoEol.ok (RE.NoEol.alts ?_) l
  simp only [List.forall_mem_cons, List.not_mem_nil, false_implies, implies_true, and_true]
  exact ⟨lowChar.word U rfl, lowChar.word U rfl⟩

include hM in
variable (U) in
theorem reGap_ok (l : Need) : RxOk M t l reGap :=
  RE.NoEol.ok (r := reGap) (fun _ hc => hc.notBlank U) l

include hM in
variable (U) in
theorem reShort_ok (l : Need) : RxOk M t l reShort := by
  refine RE.NoEol.ok (.many1 (fun c hc => ?_)) l
  obtain ⟨h1, h2, h3⟩ := hc.notAz U
  simp [h1, h2, h3, hc.ne U (a := '-')]

include hM in
variable (U) in
theorem reQualifier_ok (l : Need) : RxOk M t l reQualifier := by
  refine RE.NoEol.ok (r := reQualifier) (fun c hc => ?_) l
  simp [hc.ne U (a := '?'), hc.ne U (a := '!')]

include hM in
variable (U) in
theorem reName_ok (l : Need) : RxOk M t l reName :=
  RE.NoEol.ok (r := reName) ⟨fun _ hc => (hc.notName U).1, fun _ hc => (hc.notName U).2⟩ l

theorem reReserved_ok (l : Need) : RxOk M t l (reReserved U) := by
  refine RE.NoEol.ok (r := reReserved U) ⟨RE.NoEol.alts ?_, fun c hc => hc.notWord⟩ l
  simp only [reservedNames, List.map_cons, List.map_nil, List.forall_mem_cons, List.not_mem_nil, false_implies,
    implies_true, and_true]
  refine ⟨?_, ?_, ?_, ?_, ?_, ?_, ?_, ?_, ?_, ?_, ?_, ?_, ?_, ?_, ?_, ?_⟩ <;> exact lowChar.word U rfl

theorem reXml_ok (l : Need) : RxOk M t l (reXml U) := by
  have h : ∀ c, EolChar M c → xmlEnd U c = false ∧ xmlStart U c = false := by
    intro c hc
    have h := hc.notXml (U := U)
    simp only [xmlMid, Bool.or_eq_false_iff] at h
    refine ⟨h.1, ?_⟩
    simp only [xmlEnd, Bool.or_eq_false_iff] at h
    exact h.1.1.1.1.1
  exact RE.NoEol.ok (r := reXml U) ⟨fun c hc => (h c hc).2, .opt ⟨fun c hc => hc.notXml, fun c hc => (h c hc).1⟩⟩ l

theorem reNumber_ok (l : Need) : RxOk M t l (reNumber U) := by
  have hd : ∀ c, EolChar M c → reDigit U c = false := fun c hc => hc.notDigit
  have hp : ∀ c, EolChar M c → (c == '.') = false := fun c hc => by simp [hc.ne U (a := '.')]
  have he : ∀ c, EolChar M c → (c == 'e' || c == 'E') = false :=
    fun c hc => by simp [hc.ne U (a := 'e'), hc.ne U (a := 'E')]
  have hs : ∀ c, EolChar M c → (c == '+' || c == '-') = false :=
    fun c hc => by simp [hc.ne U (a := '+'), hc.ne U (a := '-')]
  exact RE.NoEol.ok (r := reNumber U) ⟨⟨⟨hp, .many1 hd⟩, ⟨.many1 hd, .opt ⟨hp, hd⟩⟩⟩,
    .opt ⟨he, .opt hs, .many1 hd⟩⟩ l

include hM in
variable (U) in
theorem reSign_ok (l : Need) : RxOk M t l reSign := by
  refine RE.NoEol.ok (r := reSign) (.opt (fun c hc => ?_)) l
  simp [hc.ne U (a := '+'), hc.ne U (a := '-')]

include hM in
variable (U) in
theorem reEscape_ok (l : Need) : RxOk M t l reEscape := by
  refine RE.NoEol.ok (RE.NoEol.alts ?_) l
  simp only [List.forall_mem_cons, List.not_mem_nil, false_implies, implies_true, and_true]
  exact ⟨lowChar.word U rfl, lowChar.word U rfl, lowChar.word U rfl⟩

theorem reLine_ok (ex : List Char) (l : Need) : RxOk M t l (reLine M ex) :=
  RE.NoEol.ok (r := reLine M ex) (.many1 (fun _ hc => hc.notLine)) l

include hM in
variable (U) in
theorem reSpace_ok (l : Need) : RxOk M t l reSpace := RE.NoEol.ok (r := reSpace) (.many1 (fun _ hc => hc.notBlank U)) l

include hM in
variable (U) in
theorem reWs_ok (l : Need) : RxOk M t l reWs := RE.NoEol.ok (r := reWs) (fun _ hc => hc.notBlank U) l

theorem manyRests_all {p : Char → Bool} {a : Str} (h : ∀ c ∈ a, p c = true) :
    (manyRests p a).head? = some [] := by
  induction a with
  | nil => rfl
  | cons c a ih =>
    simp only [manyRests, h c List.mem_cons_self, if_true, List.head?_append,
      ih (fun d hd => h d (List.mem_cons_of_mem _ hd))]
    rfl

/-- If a text has a last character that is not a newline, then newlines in it end before its end. -/
theorem Joinable.stop {a : Str} (h : Joinable M t a) (hne : a ≠ []) {p : Char → Bool}
    (hp : ∀ c, p c = true → isSpace c = true) : ∃ c ∈ a, p c = false := by
  obtain ⟨c, hc⟩ : ∃ c, a.getLast? = some c := by
    cases hl : a.getLast? with
    | none => exact absurd (List.getLast?_eq_none_iff.1 hl) hne
    | some c => exact ⟨c, rfl⟩
  refine ⟨c, List.mem_of_getLast? hc, ?_⟩
  cases hpc : p c with
  | false => rfl
  | true =>
    have := hp c hpc
    rw [h.last c hc] at this
    cases this

include hM in
variable (U) in
theorem reNl_ok {l : Need} (hl : Need.char.le l = true) : RxOk M t l reNl := by
  intro a hf hm
  have hne : a ≠ [] := Need.Met.mono (m := .char) hl hm
  constructor
  · cases a with
    | nil => exact absurd rfl hne
    | cons c a =>
      simp only [RE.match?, reNl, RE.many1, RE.rests, List.cons_append]
      by_cases hc : c = '\n'
      · subst hc
        simp only [beq_self_eq_true, if_true, List.flatMap_cons, List.flatMap_nil, List.append_nil]
        have : ∃ c ∈ a, (c == '\n') = false := by
          have hs := hf.stop hne (p := (· == '\n')) (by intro c hc; rw [beq_iff_eq.1 hc]; rfl)
          obtain ⟨d, hd, hn⟩ := hs
          rcases List.mem_cons.1 hd with rfl | hd
          · simp at hn
          · exact ⟨d, hd, hn⟩
        rw [manyRests_append_of_stop a this]
        cases manyRests (fun x => x == '\n') a <;> rfl
      · have : (c == '\n') = false := by simp [hc]
        simp [this]
  · intro x hx
    refine RE.match?_net (r := reNl) ⟨?_, ?_⟩ hx <;>
    · intro c hc
      have := hM.high c hc
      simp only [beq_eq_false_iff_ne]
      rintro rfl
      revert this
      decide

theorem word_mem {w : Str} : ∀ {a b : Str}, b ∈ (RE.word w).rests a → a = w ++ b := by
  induction w with
  | nil =>
    intro a b h
    simp only [RE.word, RE.rests, List.mem_singleton] at h
    simp [h]
  | cons c w ih =>
    intro a b h
    cases a with
    | nil => simp [RE.word, RE.rests] at h
    | cons d a =>
      by_cases hd : (d == c) = true
      · simp only [RE.word, RE.rests, hd, if_true, List.flatMap_cons, List.flatMap_nil, List.append_nil] at h
        rw [ih h, beq_iff_eq.1 hd]
        rfl
      · simp [RE.word, RE.rests, hd] at h

theorem manyRests_cases {p : Char → Bool} : ∀ {s x : Str}, x ∈ manyRests p s →
    x = s.dropWhile p ∨ ∃ c y, x = c :: y ∧ p c = true
  | [], x, h => by
    simp only [manyRests, List.mem_singleton] at h
    exact .inl (by simp [h])
  | c :: s, x, h => by
    by_cases hc : p c = true
    · simp only [manyRests, hc, if_true, List.mem_append, List.mem_singleton] at h
      rcases h with h | h
      · rcases manyRests_cases h with h | h
        · exact .inl (by simp [hc, h])
        · exact .inr h
      · exact .inr ⟨c, s, h, hc⟩
    · simp only [manyRests, hc, Bool.false_eq_true, if_false, List.mem_singleton] at h
      exact .inl (by simp [hc, h])

/-- The matches at the beginning of `a ++ '\n' :: t` are those at the beginning of `a`. -/
def RE.Follows (t a : Str) (r : RE) : Prop := r.rests (a ++ '\n' :: t) = (r.rests a).map (· ++ '\n' :: t)

theorem RE.Follows.alts {a : Str} : ∀ {rs : List RE}, (∀ r ∈ rs, r.Follows t a) → (RE.alts rs).Follows t a
  | [], _ => RE.rests_append (RE.chr fun _ => false) rfl a
  | [r], h => h r List.mem_cons_self
  | r :: r' :: rs, h => by
    have h1 := h r List.mem_cons_self
    have h2 := RE.Follows.alts (rs := r' :: rs) (fun x hx => h x (List.mem_cons_of_mem _ hx))
    simp only [RE.Follows] at h1 h2
    simp only [RE.Follows, RE.alts, RE.rests, h1, h2, List.map_append]

/-- Two words and spaces between them. -/
theorem RE.Follows.words {a w v : Str} {c : Char} (hf : Joinable M t a) (hw : ∀ c ∈ w, c ≠ '\n')
    (hv : ∀ d ∈ c :: v, d ≠ '\n') (hc : isSpace c = false) (h : w <:+ a → ¬ c :: v <+: t.dropWhile isSpace) :
    (RE.seq (RE.word w) (.seq (RE.many1 isSpace) (RE.word (c :: v)))).Follows t a := by
  have calm : ∀ {w : Str}, (∀ c ∈ w, c ≠ '\n') → (RE.word w).Calm := by
    intro w hw
    induction w with
    | nil => trivial
    | cons d w ih =>
      exact ⟨beq_eq_false_iff_ne.2 (hw d List.mem_cons_self).symm, ih (fun e he => hw e (List.mem_cons_of_mem _ he))⟩
  simp only [RE.Follows, RE.rests]
  rw [RE.rests_append _ (calm hw)]
  refine flatMap_map_append _ (fun b hb => ?_)
  have ha := word_mem hb
  cases b with
  | nil =>
    have h := h (by simp [ha])
    simp only [List.nil_append, RE.many1, RE.rests, List.flatMap_nil, List.map_nil]
    rw [if_pos (by decide)]
    simp only [List.flatMap_cons, List.flatMap_nil, List.append_nil]
    rw [List.flatMap_eq_nil_iff]
    intro x hx
    refine word_none (fun hp => ?_)
    rcases manyRests_cases hx with hx | ⟨d, y, rfl, hd⟩
    · exact h (hx ▸ hp)
    · obtain ⟨z, hz⟩ := hp
      simp only [List.cons_append, List.cons.injEq] at hz
      rw [hz.1, hd] at hc
      cases hc
  | cons d b =>
    have hfb : Joinable M t (d :: b) := hf.suffix ⟨w, ha.symm⟩
    simp only [RE.many1, RE.rests, List.cons_append]
    by_cases hd : isSpace d = true
    · simp only [hd, if_true, List.flatMap_cons, List.flatMap_nil, List.append_nil]
      obtain ⟨e, he, hn⟩ := hfb.stop (by simp) (p := isSpace) (fun _ h => h)
      have hs : ∃ c ∈ b, isSpace c = false := by
        rcases List.mem_cons.1 he with rfl | he
        · rw [hd] at hn; cases hn
        · exact ⟨e, he, hn⟩
      rw [manyRests_append_of_stop b hs]
      exact flatMap_map_append _ (fun z _ => RE.rests_append _ (calm hv) z)
    · simp [hd]

include hM in
variable (U) in
theorem reComp_ok (hsp : ∀ c, isMark M c = true → isSpace c = false) (l : Need) : RxOk M t l reComp := by
  intro a hf _
  have hw : ∀ {w : Str}, w.all lowChar = true → RE.NoEol M (RE.word w) := fun h => lowChar.word U h
  have hx : ∀ {w : Str}, w.all lowChar = true → (RE.word w).Follows t a :=
    fun h => RE.rests_append _ (hw h).calm a
  constructor
  · have : reComp.Follows t a := by
      refine RE.Follows.alts ?_
      simp only [List.forall_mem_cons, List.not_mem_nil, false_implies, implies_true, and_true]
      refine ⟨hx rfl, hx rfl, hx rfl, hx rfl, hx rfl, hx rfl, hx rfl, ?_, ?_, hx rfl, hx rfl⟩
      · exact RE.Follows.words hf (by decide) (by decide) (by decide) hf.notIn
      · exact RE.Follows.words hf (by decide) (by decide) (by decide) hf.isNot
    rw [RE.match?, this, RE.match?]
    cases reComp.rests a <;> rfl
  · intro x hx
    have hn : ∀ {w : Str}, w.all lowChar = true → RE.NoMark M (RE.word w) := fun h => (hw h).noMark
    refine RE.match?_net (r := reComp) ?_ hx
    exact ⟨hn rfl, hn rfl, hn rfl, hn rfl, hn rfl, hn rfl, hn rfl, ⟨hn rfl, ⟨hsp, hsp⟩, hn rfl⟩,
      ⟨hn rfl, ⟨hsp, hsp⟩, hn rfl⟩, hn rfl, hn rfl⟩

theorem prefix_append_iff {w a : Str} (h : ∀ c ∈ w, c ≠ '\n') : w <+: a ++ '\n' :: t ↔ w <+: a := by
  induction w generalizing a with
  | nil => simp
  | cons c w ih =>
    cases a with
    | nil =>
      simp only [List.nil_append, List.prefix_nil, reduceCtorEq, iff_false]
      rintro ⟨z, hz⟩
      simp only [List.cons_append, List.cons.injEq] at hz
      exact h c List.mem_cons_self hz.1
    | cons d a =>
      simp only [List.cons_append, List.cons_prefix_cons]
      rw [ih (fun e he => h e (List.mem_cons_of_mem _ he))]

theorem manyRests_close {q : Char} (w x : Str) (h : ∀ c ∈ w, c ≠ q) :
    (manyRests (· != q) (w ++ q :: x)).flatMap (RE.chr (· == q)).rests = [x] := by
  induction w with
  | nil => simp [manyRests, RE.rests]
  | cons c w ih =>
    have hc : c ≠ q := h c List.mem_cons_self
    have hc' : (c != q) = true := by simp [hc]
    have hc2 : (c == q) = false := by simp [hc]
    simp only [List.cons_append, manyRests, hc', if_true, List.flatMap_append,
      ih (fun d hd => h d (List.mem_cons_of_mem _ hd))]
    simp [RE.rests, hc2]

theorem word_rests (w s : Str) : (RE.word w).rests (w ++ s) = [s] := by
  induction w with
  | nil => rfl
  | cons c w ih => simp [RE.word, RE.rests, ih]

include hM in
variable (U) in
theorem reRaw_ok {q : Char} (hq : q = '\'' ∨ q = '"') (l : Need) : RxOk M t l (reRaw q) := by
  intro a hf _
  have hnl : ∀ c ∈ ['r', q], c ≠ '\n' := by
    rcases hq with rfl | rfl <;> decide
  have hlow : (['r', q]).all lowChar = true := by
    rcases hq with rfl | rfl <;> rfl
  have key : ∀ s : Str, ¬ ['r', q] <+: s → (reRaw q).match? s = none := by
    intro s hs
    simp [RE.match?, reRaw, RE.rests, word_none hs]
  by_cases hp : ['r', q] <+: a
  · obtain ⟨v, rfl⟩ := hp
    obtain ⟨w, x, rfl, hw⟩ := hf.raw q v hq (List.suffix_refl _)
    have hm : ∀ y, (reRaw q).match? (['r', q] ++ (w ++ q :: y)) = some y := by
      intro y
      simp only [RE.match?, reRaw]
      show ((((RE.word ['r', q]).rests (['r', q] ++ (w ++ q :: y))).flatMap _)).head? = _
      rw [word_rests]
      simp only [List.flatMap_cons, List.flatMap_nil, List.append_nil]
      show ((manyRests (· != q) (w ++ q :: y)).flatMap (RE.chr (· == q)).rests).head? = _
      rw [manyRests_close w y (fun c hc => (hw c hc).1)]
      rfl
    constructor
    · rw [hm x]
      have := hm (x ++ '\n' :: t)
      simpa using this
    · intro y hy
      rw [hm x] at hy
      cases hy
      have hl := lowChar.lit (M := M) U hlow
      rw [net_append_of_not_mark (fun c hc => (hl c hc).2), net_append_of_not_mark (fun c hc => (hw c hc).2),
        net_cons_of_not_mark (hl q (by simp)).2]
  · rw [key a hp, key _ (fun h => hp ((prefix_append_iff hnl).1 h))]
    exact ⟨rfl, fun x hx => by cases hx⟩

theorem manyRests_head (p : Char → Bool) (s : Str) : (manyRests p s).head? = some (s.dropWhile p) := by
  induction s with
  | nil => rfl
  | cons c s ih =>
    by_cases hc : p c = true
    · simp [manyRests, hc, List.head?_append, ih]
    · simp [manyRests, hc]

theorem unmarked_before_blank {u x : Str} (hf : Joinable M t (u ++ x)) (hu : ∀ c ∈ u, isSpace c = false) {d : Char}
    (hx : x.head? = some d) (hd : isBlank d = true) (hsp : ∀ c, isMark M c = true → isSpace c = false) :
    ∀ c ∈ u, isMark M c = false := by
  have hds : isSpace d = true := by
    simp only [isBlank, Bool.or_eq_true, beq_iff_eq] at hd
    rcases hd with rfl | rfl <;> rfl
  have hdm : isMark M d = false := by
    cases h : isMark M d with
    | false => rfl
    | true => rw [hsp d h] at hds; cases hds
  have hdn : d ≠ '\n' := by rintro rfl; cases hd
  induction u with
  | nil => simp
  | cons c u ih =>
    have ih := ih (hf.suffix ⟨[c], rfl⟩) (fun e he => hu e (List.mem_cons_of_mem _ he))
    intro e he
    rcases List.mem_cons.1 he with rfl | he
    · cases hm : isMark M e with
      | false => rfl
      | true =>
        exfalso
        rcases hf.marks e (u ++ x) (List.suffix_refl _) hm with h | ⟨f, v, h, hfm⟩
        · simp only [List.append_eq_nil_iff] at h
          rw [h.2] at hx
          cases hx
        · cases u with
          | nil =>
            simp only [List.nil_append] at h
            rw [h] at hx
            cases hx
            rcases hfm with hfm | hfm
            · rw [hdm] at hfm; cases hfm
            · exact hdn hfm
          | cons g u =>
            simp only [List.cons_append, List.cons.injEq] at h
            rcases hfm with hfm | hfm
            · rw [← h.1, ih g List.mem_cons_self] at hfm; cases hfm
            · have := hu g (by simp)
              rw [h.1, hfm] at this
              cases this
    · exact ih e he

/-- A path that is followed by a blank contains no marks. -/
theorem rePath_net {a x : Str} (hf : Joinable M t a) (h : rePath.match? a = some x) {d : Char}
    (hx : x.head? = some d) (hd : isBlank d = true)
    (hsp : ∀ c, isMark M c = true → isSpace c = false) : net M x = net M a := by
  cases a with
  | nil => simp [rePath, RE.match?, RE.many1, RE.rests] at h
  | cons c a =>
    simp only [rePath, RE.match?, RE.many1, RE.rests] at h
    by_cases hc : (!(isSpace c || c == '"' || c == '\'')) = true
    · rw [if_pos hc] at h
      simp only [List.flatMap_cons, List.flatMap_nil, List.append_nil, manyRests_head, Option.some.injEq] at h
      have e : c :: a = (c :: a.takeWhile (fun c => !(isSpace c || c == '"' || c == '\''))) ++ x := by
        rw [← h]
        simp
      rw [e] at hf ⊢
      rw [net_append_of_not_mark]
      refine unmarked_before_blank hf ?_ hx hd hsp
      have key : ∀ e : Char, (!(isSpace e || e == '"' || e == '\'')) = true → isSpace e = false := by
        intro e he
        simp only [Bool.not_eq_true', Bool.or_eq_false_iff] at he
        exact he.1.1
      intro f hf'
      rcases List.mem_cons.1 hf' with rfl | hf'
      · exact key f hc
      · have := List.all_takeWhile (l := a) (p := fun c => !(isSpace c || c == '"' || c == '\''))
        exact key f (List.all_eq_true.1 this f hf')
    · rw [if_neg hc] at h
      simp at h

/-! ### The rules -/

section
variable (U) (hsp : ∀ c, isMark M c = true → isSpace c = false)
include hM hsp

set_option maxHeartbeats 4000000 in
theorem rules_steady {n : NT} {l : Need} (hl : needOf n = some l) : Steady M t l (rule M U n) := by
  have H : ∀ {n : NT} {l m : Need}, needOf n = some m → m.le l = true → Steady M t l (.ref n) :=
    fun h1 h2 => Steady.ref h1 h2
  have L : ∀ {w : Str} {l : Need}, w.all lowChar = true → Steady M t l (.lit w) :=
    fun h => Steady.lit (lowChar.lit U h)
  cases n <;> cases hl <;> simp only [rule] <;>
  repeat' (first
    | with_reducible refine Steady.rx ?_
    | exact H rfl rfl
    | exact L rfl
    | with_reducible apply reInplace_ok U | with_reducible apply reComment_ok U | with_reducible apply reGap_ok U
    | with_reducible apply reShort_ok U | with_reducible apply reQualifier_ok U | with_reducible apply reName_ok U
    | with_reducible apply reReserved_ok | with_reducible apply reXml_ok | with_reducible apply reNumber_ok
    | with_reducible apply reSign_ok U | with_reducible apply reEscape_ok U | with_reducible exact reLine_ok _ _
    | with_reducible apply reSpace_ok U | with_reducible apply reWs_ok U
    | exact reNl_ok U rfl
    | with_reducible refine reComp_ok U hsp _
    | with_reducible refine reRaw_ok U (.inl (by rfl)) _ | with_reducible refine reRaw_ok U (.inr (by rfl)) _
    | exact Steady.spaces rfl | exact Steady.tabs rfl
    | refine Steady.clause (.inl rfl) ?_ | refine Steady.clause (.inr rfl) ?_
    | exact SteadySeq.nil | exact SteadyAll.nil
    | refine SteadySeq.path ?_
    | refine SteadySeq.cons ?_ ?_ | refine SteadyAll.cons ?_ ?_
    | refine Steady.seq ?_ | refine Steady.alt ?_ | refine Steady.opt ?_ | refine Steady.star ?_ ?_
    | refine Steady.plus ?_ ?_ | refine Steady.not ?_)

end
end
end Verif
