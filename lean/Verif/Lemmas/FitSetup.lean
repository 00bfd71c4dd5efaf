import Verif.Lemmas.Fit
import Verif.Spec.Scripts

/-! `setup()` of each node type, given children of the kinds that the grammar promises. -/

namespace Verif
open Py Spec

section
variable {P : Type} {M : Marks} {U : Uni}

/-- Symbols that are used nowhere, or in look-aheads only. -/
def isUnused : NT → Bool
  | .op_empty | .number_signed | .name_reserved => true
  | _ => false

theorem Chained.append {as bs : List Kind} (h : Chained as) (h' : Chained bs) : Chained (as ++ bs) := by
  induction h with
  | nil => exact h'
  | cons _ ih => exact .cons ih

theorem GenStar.chained {p : Peg NT} (hp : ∀ ks, Gen produces p ks → ks = [.op, .expr]) {ks : List Kind}
    (h : GenStar produces p ks) : Chained ks :=
  h.closed .nil (fun _ _ => Chained.append) (fun ks h => hp ks h ▸ .cons .nil)

theorem GenStar.even {p : Peg NT} (hp : ∀ ks, Gen produces p ks → ks.length = 2) {ks : List Kind}
    (h : GenStar produces p ks) : ks.length % 2 = 0 :=
  h.closed (R := fun ks => ks.length % 2 = 0) rfl (fun as bs h1 h2 => by simp; omega) (fun ks h => by rw [hp ks h])

theorem GenStar.only {p : Peg NT} {k : Kind} (hp : ∀ ks, Gen produces p ks → ks = [k]) {ks : List Kind}
    (h : GenStar produces p ks) : ∀ k' ∈ ks, k' = k :=
  h.all (fun ks h => by simp [hp ks h])

theorem good_expr {r : Bool} {e : Expr} (h : e.Made) (hs : ∀ s, e ≠ .static s) :
    Good (Fit M U .expr) (.ok (.expr r e : Built P)) := ⟨h, hs⟩

theorem factor_fit {ts : List Kind} {bs : List (Built P)} (hk : ∃ us, (ts = us ∨ ts = us ++ [.qual]) ∧ ∀ k ∈ us, k = .tail)
    (h : FitAll M U (.expr :: ts) bs) {names : Str → Option Char} {full text : Str} {n : NT} {pos : Nat}
    (hn : n = .factor ∨ n = .factor_var ∨ n = .factor_strict ∨ n = .factor_filt ∨ n = .filter) :
    Good (Fit M U .expr) (setup names full n pos text bs) := by
  simp only [all₂_cons, fit_expr] at h
  obtain ⟨_, ⟨r, e, rfl, he, -⟩, bs', hb, rfl⟩ := h
  have := asTails_fit hk hb
  have h' : Good (Fit M U .expr) (do
      let (ts, q) ← asTails bs'
      return (.expr false (.factor e ts q) : Built P)) :=
    this.bind fun r hr => good_expr ⟨he, hr⟩ (by simp)
  rcases hn with rfl | rfl | rfl | rfl | rfl <;> exact h'

theorem chain_fit {ks : List Kind} {bs : List (Built P)} (hk : Chained ks)
    (h : FitAll M U (.expr :: ks) bs) {names : Str → Option Char} {full text : Str} {n : NT} {pos : Nat}
    (hn : n = .pow_expr ∨ n = .term ∨ n = .shift_expr ∨ n = .comparison ∨ n = .arith_expr) :
    Good (Fit M U .expr) (setup names full n pos text bs) := by
  simp only [all₂_cons, fit_expr] at h
  obtain ⟨_, ⟨r, e, rfl, he, -⟩, bs', hb, rfl⟩ := h
  have := asChain_fit hk hb
  have h' : Good (Fit M U .expr) (do
      let (os, es) ← asChain bs'
      return (.expr false (.chain false e os es) : Built P)) :=
    this.bind fun r hr => good_expr ⟨he, hr⟩ (by simp)
  rcases hn with rfl | rfl | rfl | rfl | rfl <;> exact h'

theorem seq_fit {ks : List Kind} {bs : List (Built P)} (hk : ∀ k ∈ ks, k = .expr)
    (h : FitAll M U (.expr :: ks) bs) {names : Str → Option Char} {full text : Str} {n : NT} {pos : Nat}
    (hn : n = .and_expr ∨ n = .xor_expr ∨ n = .or_expr ∨ n = .pipeline ∨ n = .and_test ∨ n = .or_test) :
    Good (Fit M U .expr) (setup names full n pos text bs) := by
  simp only [all₂_cons, fit_expr] at h
  obtain ⟨_, ⟨r, e, rfl, he, -⟩, bs', hb, rfl⟩ := h
  have := asExprs_fit hb hk
  rcases hn with rfl | rfl | rfl | rfl | rfl | rfl <;>
    exact this.bind fun r hr => good_expr ⟨he, hr.1⟩ (by simp)

theorem all_fit {ks : List Kind} {bs : List (Built P)} (hk : ∀ k ∈ ks, k = .expr)
    (h : FitAll M U ks bs) {names : Str → Option Char} {full text : Str} {n : NT} {pos : Nat}
    (hn : n = .concat_expr ∨ n = .list ∨ n = .tuple ∨ n = .expr_tuple ∨ n = .set) :
    Good (Fit M U .expr) (setup names full n pos text bs) := by
  have := asExprs_fit h hk
  rcases hn with rfl | rfl | rfl | rfl | rfl <;>
    exact this.bind fun r hr => good_expr hr.1 (by simp)

theorem text_fit {k : LineKind} {ks : List Kind} {bs : List (Built P)} (hk : kLines k ks)
    (h : FitAll M U ks bs) {names : Str → Option Char} {full text : Str} {n : NT} {pos : Nat}
    (hn : n = .block_verbat ∨ n = .block_normal ∨ n = .block_markup) :
    Good (Fit M U (.stmt .text)) (setup names full n pos text bs) := by
  have := asItems_fit hk h
  have h' : Good (Fit M U (.stmt .text)) (do
      let is ← asItems bs
      return (.stmt (.text (columnAt full pos) is) : Built P)) :=
    this.bind fun r hr => ⟨rfl, by simp [columnAt], k, hr⟩
  rcases hn with rfl | rfl | rfl <;> exact h'

theorem body_fit {ks : List Kind} {bs : List (Built P)}
    (hk : ∃ hs ts, ks = hs ++ ts ∧ (hs = [] ∨ ∃ k, hs = [.line k]) ∧ kBlocks ts)
    (h : FitAll M U ks bs) {names : Str → Option Char} {full text : Str} {n : NT} {pos : Nat}
    (hn : n = .body_control ∨ n = .body_struct) :
    Good (Fit M U (.stmt .body)) (setup names full n pos text bs) := by
  obtain ⟨hs, ts, rfl, hh, ht⟩ := hk
  have hm : ∀ k ∈ hs ++ ts, k.isStmt := by
    intro k hk
    rcases List.mem_append.1 hk with hk | hk
    · rcases hh with rfl | ⟨l, rfl⟩
      · cases hk
      · simp at hk; subst hk; trivial
    · exact ht.isStmt k hk
  have := asStmts_fit hm h
  have h' : Good (Fit M U (.stmt .body)) (do
      let ss ← asStmts bs
      return (.stmt (.body ss) : Built P)) := by
    refine this.bind fun ss hss => ⟨rfl, ?_⟩
    obtain ⟨cs, cs', rfl, h1, h2⟩ := hss.1.split
    refine ⟨⟨cs, cs', rfl, ?_, ?_, blocks_fit ht h2⟩, hss.2⟩
    · rw [h1.length]
      rcases hh with rfl | ⟨l, rfl⟩ <;> simp
    · rcases hh with rfl | ⟨l, rfl⟩
      · cases h1; simp
      · simp only [all₂_cons, all₂_nil] at h1
        obtain ⟨b, hb, _, rfl, rfl⟩ := h1
        cases b <;> simp [StmtFit] at hb ⊢
  rcases hn with rfl | rfl <;> exact h'

theorem kLines_first {k : LineKind} {ks : List Kind}
    (h : (ks = [] ∨ kLines k ks) ∨ ks = [.line k] ∨ ∃ x, kLines k x ∧ ks = .line k :: x) : kLines k ks := by
  rcases h with (rfl | h) | rfl | ⟨x, h, rfl⟩
  · exact .nil
  · exact h
  · exact .one (.inl rfl) .nil
  · exact .one (.inl rfl) h

theorem setup_fit [hM : MarksApart M U] {names : Str → Option Char} {full : Str} {n : NT} (hi : isIgnored n = false) (hr : isReduced n = false)
    (hu : isUnused n = false) {ks : List Kind} (hg : Gen produces (rule M U n) ks) (hc : isCompact n = true → ks.length ≠ 1)
    {bs : List (Built P)} (hf : FitAll M U ks bs) {text : Str} (ht : textOk M U n text) (pos : Nat) :
    Good (Fit M U (kindOf n)) (setup names full n pos text bs) := by
  cases n <;> first | (exact absurd hi (by decide)) | (exact absurd hr (by decide)) | (exact absurd hu (by decide)) | skip
  all_goals simp [rule, produces, kindOf, or_and_right, exists_or] at hg
  all_goals clear hi hr hu
  -- sequences of operators
  case factor =>
    obtain ⟨bs, ⟨as, ha, hb⟩, rfl⟩ := hg
    exact factor_fit ⟨as, hb, ha.only (by simp [produces])⟩ hf (by simp)
  case factor_var =>
    obtain ⟨bs, ⟨as, ha, hb⟩, rfl⟩ := hg
    exact factor_fit ⟨as, hb, ha.only (by simp [produces])⟩ hf (by simp)
  case factor_strict =>
    obtain ⟨bs, ⟨as, ha, hb⟩, rfl⟩ := hg
    exact factor_fit ⟨as, hb, ha.only (by simp [produces])⟩ hf (by simp)
  case factor_filt =>
    obtain ⟨as, ha, rfl⟩ := hg
    exact factor_fit ⟨as, .inl rfl, ha.only (by simp [produces])⟩ hf (by simp)
  case filter =>
    rcases hg with rfl | rfl
    · exact factor_fit ⟨[], .inl rfl, by simp⟩ hf (by simp)
    · exact factor_fit ⟨[_], .inl rfl, by simp⟩ hf (by simp)
  case pow_expr => obtain ⟨as, ha, rfl⟩ := hg; exact chain_fit (ha.chained (by simp [produces, kindOf])) hf (by simp)
  case term => obtain ⟨as, ha, rfl⟩ := hg; exact chain_fit (ha.chained (by simp [produces, kindOf])) hf (by simp)
  case shift_expr => obtain ⟨as, ha, rfl⟩ := hg; exact chain_fit (ha.chained (by simp [produces, kindOf])) hf (by simp)
  case comparison => obtain ⟨as, ha, rfl⟩ := hg; exact chain_fit (ha.chained (by simp [produces, kindOf])) hf (by simp)
  case arith_expr =>
    rcases hg with ⟨as, ha, rfl⟩ | ⟨bs, ⟨as, ha, rfl⟩, rfl⟩
    · exact chain_fit (ha.chained (by simp [produces, kindOf])) hf (by simp)
    · simp only [all₂_cons, fit_neg, fit_expr] at hf
      obtain ⟨_, rfl, _, ⟨_, ⟨r, e, rfl, he, -⟩, bs', hb, rfl⟩, rfl⟩ := hf
      exact (asChain_fit (ha.chained (by simp [produces, kindOf])) hb).bind fun r hr => good_expr ⟨he, hr⟩ (by simp)
  case and_expr => obtain ⟨as, ha, rfl⟩ := hg; exact seq_fit (ha.only (by simp [produces, kindOf])) hf (by simp)
  case xor_expr => obtain ⟨as, ha, rfl⟩ := hg; exact seq_fit (ha.only (by simp [produces, kindOf])) hf (by simp)
  case or_expr => obtain ⟨as, ha, rfl⟩ := hg; exact seq_fit (ha.only (by simp [produces, kindOf])) hf (by simp)
  case pipeline => obtain ⟨as, ha, rfl⟩ := hg; exact seq_fit (ha.only (by simp [produces, kindOf])) hf (by simp)
  case and_test => obtain ⟨as, ha, rfl⟩ := hg; exact seq_fit (ha.only (by simp [produces, kindOf])) hf (by simp)
  case or_test => obtain ⟨as, ha, rfl⟩ := hg; exact seq_fit (ha.only (by simp [produces, kindOf])) hf (by simp)
  case not_test =>
    obtain ⟨as, ha, rfl⟩ := hg
    exact (asNots_fit (ha.only (by simp [produces, kindOf])) hf).bind fun r hr => good_expr hr (by simp)
  case concat_expr =>
    obtain ⟨as, ha, rfl⟩ := hg
    exact all_fit (by simpa using ha.only (by simp [produces, kindOf])) hf (by simp)
  case set =>
    obtain ⟨as, ha, rfl⟩ := hg
    exact all_fit (by simpa using ha.only (by simp [produces, kindOf])) hf (by simp)
  case list =>
    obtain ⟨as, ha, hk⟩ := hg
    have := ha.only (k := .expr) (by simp [produces, kindOf])
    refine all_fit ?_ hf (by simp)
    rcases hk with rfl | rfl
    · exact this
    · simpa [or_imp, forall_and] using this
  case tuple =>
    rcases hg with rfl | ⟨_, ⟨as, ha, rfl⟩, hk⟩
    · exact all_fit (by simp) hf (by simp)
    have := ha.only (k := .expr) (by simp [produces, kindOf])
    refine all_fit ?_ hf (by simp)
    rcases hk with rfl | rfl
    · simpa using this
    · simpa [or_imp, forall_and] using this
  case expr_tuple =>
    obtain ⟨_, ⟨as, ha, hk⟩, rfl⟩ := hg
    have := ha.only (k := .expr) (by simp [produces, kindOf])
    refine all_fit ?_ hf (by simp)
    rcases hk with rfl | rfl
    · simpa using this
    · simpa [or_imp, forall_and] using this
  case dict =>
    obtain ⟨as, ha, hk⟩ := hg
    have h1 : ∀ k ∈ as, k = .expr := ha.all (by simp [produces])
    have h2 := ha.even (by simp [produces])
    have h3 : (∀ k ∈ ks, k = .expr) ∧ ks.length % 2 = 0 := by
      rcases hk with rfl | rfl
      · exact ⟨h1, h2⟩
      · exact ⟨by simpa [or_imp, forall_and] using h1, by simp; omega⟩
    exact (asExprs_fit hf h3.1).bind fun r hr => 
      good_expr ⟨hr.1, by rw [hr.2]; exact h3.2⟩ (by simp)
  case ifelse_test =>
    rcases hg with rfl | rfl | rfl
    · exact absurd rfl (hc rfl)
    · simp only [all₂_cons, all₂_nil, fit_expr] at hf
      obtain ⟨_, ⟨r, e, rfl, he, -⟩, _, ⟨_, ⟨r', e', rfl, he', -⟩, _, rfl, rfl⟩, rfl⟩ := hf
      exact good_expr ⟨he, he', trivial⟩ (by simp)
    · simp only [all₂_cons, all₂_nil, fit_expr] at hf
      obtain ⟨_, ⟨r, e, rfl, he, -⟩, _, ⟨_, ⟨r', e', rfl, he', -⟩, _, ⟨_, ⟨r2, e2, rfl, he2, -⟩, _, rfl, rfl⟩, rfl⟩, rfl⟩ := hf
      exact good_expr ⟨he, he', he2⟩ (by simp)
  case slice_value =>
    rcases hg with rfl | rfl
    · cases hf
      exact good_expr trivial (by simp)
    · simp only [all₂_cons, all₂_nil, fit_expr] at hf
      obtain ⟨_, ⟨r, e, rfl, he, hs⟩, _, rfl, rfl⟩ := hf
      exact good_expr he hs
  case index =>
    have hk : (∀ k ∈ ks, k = .expr) ∧ 1 ≤ ks.length ∧ ks.length ≤ 3 := by rcases hg with rfl | rfl | rfl <;> simp
    exact (asExprs_fit hf hk.1).bind fun r hr => ⟨hr.1, by rw [hr.2]; exact hk.2⟩
  case call => 
    have hk : ∀ k ∈ ks, k = .expr ∨ k = .kwarg := by
      rcases hg with rfl | hg
      · simp
      · exact hg
    exact (asArgs_fit hf hk).bind fun r hr => hr
  case partial_call => 
    have hk : ∀ k ∈ ks, k = .expr ∨ k = .kwarg := by
      rcases hg with rfl | hg
      · simp
      · exact hg
    exact (asArgs_fit hf hk).bind fun r hr => hr
  case string_format =>
    refine (asParts_fit (Q := fun _ => True) trivial hf ?_).bind fun r hr => good_expr hr.1 (by simp)
    intro k hk
    rcases hg k hk with h | h | h | h | h
    · exact .inl h
    · exact .inr (.inl h)
    · exact .inr (.inr ⟨_, h, fun _ _ => trivial⟩)
    · exact .inr (.inr ⟨_, h, fun _ _ => trivial⟩)
    · exact .inr (.inr ⟨_, h, fun _ _ => trivial⟩)
  case line_markup =>
    refine (asParts_fit (Q := OneLine M) (by simp [OneLine]) hf ?_).bind fun r hr => ⟨hr, rfl⟩
    have hs : ∀ ks, GenStar produces (Peg.alt [Peg.ref NT.escape, Peg.ref NT.embedding, Peg.ref NT.text]) ks →
        ∀ k ∈ ks, k = .expr ∨ k = .qual ∨ ∃ t, k = .str t ∧ ∀ w, strOk M U t w → OneLine M w := by
      intro ks h
      refine h.all ?_
      intro ks h
      simp [produces, kindOf] at h
      rcases h with rfl | (rfl | rfl) | rfl <;> simp [strOk]
    rcases hg with ⟨bs, h, rfl⟩ | (⟨bs, h, rfl⟩ | ⟨bs, h, rfl⟩) | ⟨bs, h, rfl⟩
    all_goals
      intro k hk
      simp only [List.mem_cons] at hk
    · rcases hk with rfl | hk
      · exact .inr (.inr ⟨_, rfl, fun _ h => h⟩)
      · exact hs _ h k hk
    · rcases hk with rfl | hk
      · exact .inl rfl
      · exact hs _ h k hk
    · rcases hk with rfl | rfl | hk
      · exact .inl rfl
      · exact .inr (.inl rfl)
      · exact hs _ h k hk
    · rcases hk with rfl | hk
      · exact .inr (.inr ⟨_, rfl, fun _ h => h⟩)
      · exact hs _ h k hk
  case line_normal =>
    subst hg
    simp only [all₂_cons, all₂_nil, fit_line] at hf
    obtain ⟨_, ⟨l, rfl, hl, hk⟩, _, rfl, rfl⟩ := hf
    cases l <;> simp [Line.kind] at hk
    exact ⟨hl, rfl⟩
  case line_verbat =>
    subst hg
    exact ⟨ht, rfl⟩
  -- text blocks
  case block_verbat => exact text_fit (kLines_first hg) hf (by simp)
  case block_normal => exact text_fit (kLines_first hg) hf (by simp)
  case block_markup => exact text_fit (kLines_first hg) hf (by simp)
  case block_comment => exact ⟨rfl, trivial⟩
  case block_embed =>
    subst hg
    simp only [all₂_cons, all₂_nil, fit_expr] at hf
    obtain ⟨_, ⟨r, e, rfl, he, hs⟩, _, rfl, rfl⟩ := hf
    exact ⟨rfl, he⟩
  case body_control =>
    refine body_fit ⟨[], ks, rfl, .inl rfl, ?_⟩ hf (by simp)
    rcases hg with rfl | h
    · exact .nil
    · exact h
  case body_struct =>
    refine body_fit ?_ hf (by simp)
    rcases hg with (rfl | h) | ((rfl | h) | ⟨x, ⟨k, rfl⟩, rfl | ⟨y, hy, rfl⟩⟩) | rfl | h
    · exact ⟨[], _, rfl, .inl rfl, .nil⟩
    · exact ⟨[], _, rfl, .inl rfl, h⟩
    · exact ⟨[], _, rfl, .inl rfl, .nil⟩
    · exact ⟨[], _, rfl, .inl rfl, h⟩
    · exact ⟨[_], [], rfl, .inr ⟨_, rfl⟩, .nil⟩
    · exact ⟨[_], y, rfl, .inr ⟨_, rfl⟩, hy⟩
    · exact ⟨[], _, rfl, .inl rfl, .nil⟩
    · exact ⟨[], _, rfl, .inl rfl, h⟩
  -- blocks
  case document =>
    have hk : ∃ bs ms, ks = bs ++ ms ∧ kBlocks bs ∧ (ms = [] ∨ ms = [.str .margin]) := by
      rcases hg with (rfl | rfl) | ⟨x, h, rfl | rfl⟩
      · exact ⟨[], [], rfl, .nil, .inl rfl⟩
      · exact ⟨[], [_], rfl, .nil, .inr rfl⟩
      · exact ⟨_, [], by simp, h, .inl rfl⟩
      · exact ⟨_, [_], rfl, h, .inr rfl⟩
    obtain ⟨as, ms, rfl, hb, hm⟩ := hk
    have hs : ∀ k ∈ as ++ ms, k.isStmt := by
      intro k hk
      rcases List.mem_append.1 hk with hk | hk
      · exact hb.isStmt k hk
      · rcases hm with rfl | rfl
        · cases hk
        · simp at hk; subst hk; trivial
    refine (asStmts_fit hs hf).bind fun ss hss => ?_
    obtain ⟨cs, cs', rfl, h1, h2⟩ := hss.1.split
    refine ⟨⟨cs, cs', rfl, blocks_fit hb h1, ?_, ?_⟩, hss.2⟩
    · rw [h2.length]
      rcases hm with rfl | rfl <;> simp
    · rcases hm with rfl | rfl
      · cases h2; simp
      · simp only [all₂_cons, all₂_nil] at h2
        obtain ⟨b, hb, _, rfl, rfl⟩ := h2
        cases b <;> simp [StmtFit] at hb ⊢
  case block =>
    have hk : ∃ ms r, ks = .str .margin_out :: (ms ++ [.stmt r]) ∧ (ms = [] ∨ ms = [.str .dedent] ∨ ms = [.str .append]) ∧
        (r = .inner ∨ r = .text) := by
      rcases hg with (h | (h | h) | h) | (h | (h | h) | h) | h | (h | h) | h
      · exact ⟨[], _, h, by simp, by simp⟩
      · exact ⟨[], _, h, by simp, by simp⟩
      · exact ⟨[], _, h, by simp, by simp⟩
      · exact ⟨[], _, h, by simp, by simp⟩
      · exact ⟨[_], _, h, by simp, by simp⟩
      · exact ⟨[_], _, h, by simp, by simp⟩
      · exact ⟨[_], _, h, by simp, by simp⟩
      · exact ⟨[_], _, h, by simp, by simp⟩
      · exact ⟨[_], _, h, by simp, by simp⟩
      · exact ⟨[_], _, h, by simp, by simp⟩
      · exact ⟨[_], _, h, by simp, by simp⟩
      · exact ⟨[_], _, h, by simp, by simp⟩
    obtain ⟨ms, r, rfl, hm, hr⟩ := hk
    rcases hm with rfl | rfl | rfl
    · simp only [List.nil_append, all₂_cons, all₂_nil, fit_str, fit_stmt] at hf
      obtain ⟨_, ⟨w, rfl, hw⟩, _, ⟨_, ⟨s, rfl, h1, h2⟩, _, rfl, rfl⟩, rfl⟩ := hf
      exact ⟨rfl, hw, by rw [h1]; exact hr.symm, h2⟩
    · simp only [List.cons_append, List.nil_append, all₂_cons, all₂_nil, fit_str, fit_stmt] at hf
      obtain ⟨_, ⟨w, rfl, hw⟩, _, ⟨_, ⟨w', rfl, -⟩, _, ⟨_, ⟨s, rfl, h1, h2⟩, _, rfl, rfl⟩, rfl⟩, rfl⟩ := hf
      exact ⟨rfl, hw, by rw [h1]; exact hr.symm, h2⟩
    · simp only [List.cons_append, List.nil_append, all₂_cons, all₂_nil, fit_str, fit_stmt] at hf
      obtain ⟨_, ⟨w, rfl, hw⟩, _, ⟨_, ⟨w', rfl, -⟩, _, ⟨_, ⟨s, rfl, h1, h2⟩, _, rfl, rfl⟩, rfl⟩, rfl⟩ := hf
      exact ⟨rfl, hw, by rw [h1]; exact hr.symm, h2⟩
  case block_try =>
    have hk : ∃ as cs, ks = as ++ cs ∧ (as = [] ∨ ∃ r, as = [.stmt r] ∧ r ≠ .piece ∧ r ≠ .block) ∧ ∀ k ∈ cs, k = .stmt .els := by
      rcases hg with ⟨as, cs, rfl, ⟨rfl, h⟩ | ⟨rfl, h⟩ | ⟨rfl, h⟩⟩ | h | h | h | h
      · exact ⟨[], cs, rfl, .inl rfl, h⟩
      · exact ⟨_, cs, rfl, .inr ⟨_, rfl, by simp⟩, h⟩
      · exact ⟨_, cs, rfl, .inr ⟨_, rfl, by simp⟩, h⟩
      · exact ⟨[], [], h, .inl rfl, by simp⟩
      · exact ⟨_, [], h, .inr ⟨_, rfl, by simp⟩, by simp⟩
      · exact ⟨_, [], h, .inr ⟨_, rfl, by simp⟩, by simp⟩
      · exact ⟨_, [], h, .inr ⟨_, rfl, by simp⟩, by simp⟩
    obtain ⟨as, cs, rfl, ha, hc⟩ := hk
    have hs : ∀ k ∈ as ++ cs, k.isStmt := by
      intro k hk
      rcases List.mem_append.1 hk with hk | hk
      · rcases ha with rfl | ⟨r, rfl, -⟩
        · cases hk
        · simp at hk; subst hk; trivial
      · rw [hc k hk]; trivial
    refine (asStmts_fit hs hf).bind fun ss hss => ⟨rfl, ?_, ?_, hss.2⟩
    all_goals
      obtain ⟨ds, ds', rfl, h1, h2⟩ := hss.1.split
      have h3 : ∀ s ∈ ds', s.role = .els := h2.right fun k hk s h => by rw [hc k hk] at h; exact h.1
    · rcases ha with rfl | ⟨r, rfl, hr1, hr2⟩
      · cases h1
        intro s hs
        have := h3 s (List.take_subset _ _ hs)
        simp [this]
      · simp only [all₂_cons, all₂_nil] at h1
        obtain ⟨b, hb, _, rfl, rfl⟩ := h1
        intro s hs
        simp at hs
        subst hs
        rw [hb.1]
        exact ⟨hr1, hr2⟩
    · rcases ha with rfl | ⟨r, rfl, hr1, hr2⟩
      · cases h1
        intro s hs
        exact h3 s (List.drop_subset _ _ hs)
      · simp only [all₂_cons, all₂_nil] at h1
        obtain ⟨b, hb, _, rfl, rfl⟩ := h1
        simpa using h3
  case block_expr =>
    rcases hg with rfl | rfl
    · simp only [all₂_cons, all₂_nil, fit_expr] at hf
      obtain ⟨_, ⟨r, e, rfl, he, hs⟩, _, rfl, rfl⟩ := hf
      exact ⟨rfl, he⟩
    · simp only [all₂_cons, all₂_nil, fit_expr, fit_qual] at hf
      obtain ⟨_, ⟨r, e, rfl, he, hs⟩, _, ⟨_, ⟨q, rfl⟩, _, rfl, rfl⟩, rfl⟩ := hf
      exact SetupErr.noConfusion
  case block_assign =>
    have hi : ∀ {ts : List Target}, (Target.many ts).Made →
        Good (fun t => t.Made ∧ ∃ n r w, t = .many [.var n true r w]) (setInplace (.many ts)) := by
      intro ts h
      unfold setInplace
      split
      · rename_i heq
        cases heq
        exact ⟨⟨by simp, h.2⟩, _, _, _, rfl⟩
      · exact SetupErr.noConfusion
    rcases hg with (rfl | rfl) | rfl | rfl
    · simp only [all₂_cons, all₂_nil, fit_targets, fit_expr] at hf
      obtain ⟨_, ⟨ts, rfl, ht⟩, _, ⟨_, ⟨r, e, rfl, he, -⟩, _, rfl, rfl⟩, rfl⟩ := hf
      exact ⟨rfl, ht, by simp, he⟩
    · simp only [all₂_cons, all₂_nil, fit_targets, fit_expr, fit_qual] at hf
      obtain ⟨_, ⟨ts, rfl, ht⟩, _, ⟨_, ⟨r, e, rfl, he, -⟩, _, ⟨_, ⟨q, rfl⟩, _, rfl, rfl⟩, rfl⟩, rfl⟩ := hf
      exact ⟨rfl, ht, by simp, he⟩
    · simp only [all₂_cons, all₂_nil, fit_targets, fit_expr, fit_op] at hf
      obtain ⟨_, ⟨ts, rfl, ht⟩, _, ⟨_, ⟨o, rfl⟩, _, ⟨_, ⟨r, e, rfl, he, -⟩, _, rfl, rfl⟩, rfl⟩, rfl⟩ := hf
      refine Good.bind (Q := fun s : Stmt P => s.role = .inner ∧ s.Made M U) ?_ fun s hs => hs
      exact (hi ht).bind fun t ht => ⟨rfl, ht.1, fun _ => ht.2, he⟩
    · simp only [all₂_cons, all₂_nil, fit_targets, fit_expr, fit_op, fit_qual] at hf
      obtain ⟨_, ⟨ts, rfl, ht⟩, _, ⟨_, ⟨o, rfl⟩, _, ⟨_, ⟨r, e, rfl, he, -⟩, _, ⟨_, ⟨q, rfl⟩, _, rfl, rfl⟩, rfl⟩, rfl⟩, rfl⟩ := hf
      refine Good.bind (Q := fun s : Stmt P => s.role = .inner ∧ s.Made M U) ?_ fun s hs => hs
      exact (hi ht).bind fun t ht => ⟨rfl, ht.1, fun _ => ht.2, he⟩
  case block_while =>
    rcases hg with rfl | rfl
    · simp only [all₂_cons, all₂_nil, fit_clause] at hf
      obtain ⟨_, ⟨e, s, rfl, h1, h2, h3⟩, _, rfl, rfl⟩ := hf
      exact ⟨rfl, h1, h2, h3, by simp, trivial⟩
    · simp only [all₂_cons, all₂_nil, fit_clause, fit_stmt] at hf
      obtain ⟨_, ⟨e, s, rfl, h1, h2, h3⟩, _, ⟨_, ⟨s', rfl, h4, h5⟩, _, rfl, rfl⟩, rfl⟩ := hf
      exact ⟨rfl, h1, h2, h3, by simpa using h4, h5⟩
  case block_for =>
    have hk : ∃ as cs : List Kind, ks = .targets :: .expr :: (as ++ cs) ∧
        (as = [] ∨ as = [.stmt .text] ∨ as = [.stmt .body]) ∧ (cs = [] ∨ cs = [.stmt .els]) := by
      rcases hg with (h | h) | (h | h) | h | h
      · exact ⟨[], [], h, by simp, by simp⟩
      · exact ⟨[], [_], h, by simp, by simp⟩
      · exact ⟨[_], [], h, by simp, by simp⟩
      · exact ⟨[_], [_], h, by simp, by simp⟩
      · exact ⟨[_], [], h, by simp, by simp⟩
      · exact ⟨[_], [_], h, by simp, by simp⟩
    obtain ⟨as, cs, rfl, ha, hcs⟩ := hk
    simp only [all₂_cons, fit_targets, fit_expr] at hf
    obtain ⟨_, ⟨ts, rfl, ht⟩, _, ⟨_, ⟨r, e, rfl, he, -⟩, bs', hf, rfl⟩, rfl⟩ := hf
    have hs : ∀ k ∈ as ++ cs, k.isStmt := by
      rcases ha with rfl | rfl | rfl <;> rcases hcs with rfl | rfl <;> simp [Kind.isStmt]
    refine (asStmts_fit hs hf).bind fun ss hss => ⟨rfl, ⟨_, rfl⟩, ht, he, ?_, hss.2⟩
    obtain ⟨ds, ds', rfl, h1, h2⟩ := hss.1.split
    have h3 : ∃ b : Option (Stmt P), ds = b.toList ∧ ∀ s ∈ b, s.isBody := by
      rcases ha with rfl | rfl | rfl
      · cases h1; exact ⟨none, rfl, by simp⟩
      all_goals
        simp only [all₂_cons, all₂_nil] at h1
        obtain ⟨b, hb, _, rfl, rfl⟩ := h1
        exact ⟨some b, rfl, by simp [Stmt.isBody, hb.1]⟩
    have h4 : ∃ b : Option (Stmt P), ds' = b.toList ∧ ∀ s ∈ b, s.role = .els := by
      rcases hcs with rfl | rfl
      · cases h2; exact ⟨none, rfl, by simp⟩
      · simp only [all₂_cons, all₂_nil] at h2
        obtain ⟨b, hb, _, rfl, rfl⟩ := h2
        exact ⟨some b, rfl, by simp [hb.1]⟩
    obtain ⟨b, rfl, hb⟩ := h3
    obtain ⟨els, rfl, hels⟩ := h4
    exact ⟨b, els, rfl, hb, hels⟩
  case block_if =>
    obtain ⟨bs, ⟨as, ha, hk⟩, rfl⟩ := hg
    have h1 : ∀ k ∈ Kind.clause :: as, k = .clause := by simpa using ha.only (by simp [produces, kindOf])
    have hk : ∃ es, Kind.clause :: bs = (.clause :: as) ++ es ∧ (es = [] ∨ es = [.stmt .els]) := by
      rcases hk with rfl | rfl
      · exact ⟨[], by simp, .inl rfl⟩
      · exact ⟨[_], by simp, .inr rfl⟩
    obtain ⟨es, he, hes⟩ := hk
    rw [he] at hf
    refine (splitClauses_fit h1 hes hf).bind fun r hr => ⟨rfl, ?_, hr.2⟩
    intro h
    have := hr.1
    rw [h] at this
    simp at this
  case clause_if =>
    rcases hg with rfl | rfl | rfl
    · simp only [all₂_cons, all₂_nil, fit_expr] at hf
      obtain ⟨_, ⟨r, e, rfl, he, hs⟩, _, rfl, rfl⟩ := hf
      exact ⟨he, by simp, trivial⟩
    all_goals
      simp only [all₂_cons, all₂_nil, fit_expr, fit_stmt] at hf
      obtain ⟨_, ⟨r, e, rfl, he, hs⟩, _, ⟨_, ⟨s, rfl, h1, h2⟩, _, rfl, rfl⟩, rfl⟩ := hf
      exact ⟨he, by simp [Stmt.isBody, h1], h2⟩
  case clause_else =>
    rcases hg with rfl | rfl | rfl
    · cases hf
      exact ⟨rfl, by simp, trivial⟩
    all_goals
      simp only [all₂_cons, all₂_nil, fit_stmt] at hf
      obtain ⟨_, ⟨s, rfl, h1, h2⟩, _, rfl, rfl⟩ := hf
      exact ⟨rfl, by simp [Stmt.isBody, h1], h2⟩
  case targets =>
    have hk : (∀ k ∈ ks, k = .var ∨ k = .targets) ∧ ks ≠ [] := by
      have hs : ∀ ks, GenStar produces (Peg.seq [Peg.ref NT.comma, Peg.ref NT.target]) ks → ∀ k ∈ ks, k = .var ∨ k = .targets := by
        intro ks h
        refine h.all ?_
        intro ks h
        simp [produces] at h
        rcases h with rfl | rfl <;> simp
      rcases hg with ⟨bs, h, rfl⟩ | ⟨bs, h, rfl⟩
      · exact ⟨by simpa using hs _ h, by simp⟩
      · exact ⟨by simpa using hs _ h, by simp⟩
    refine (asTargets_fit hk.1 hf).bind fun ts hts => ⟨⟨?_, hts.1⟩, ts, rfl⟩
    intro h
    rw [h] at hts
    exact hk.2 (List.length_eq_zero_iff.1 hts.2.symm)
  case var_def =>
    refine ⟨⟨?_, rfl, rfl⟩, _, rfl⟩
    obtain ⟨c, s, rfl, hc, hs⟩ := ht
    have : c ≠ '$' := by rintro rfl; simp [nameStart, azI] at hc
    simpa [this] using ⟨c, s, rfl, hc, hs⟩
  case block_def =>
    have hk : ∃ as fs k, ks = .str .name_id :: (as ++ (fs ++ [k])) ∧ (as = [] ∨ as = [.bodyFormal]) ∧ (∀ k ∈ fs, k = .formal) ∧
        (k = .stmt .text ∨ k = .stmt .body) := by
      obtain ⟨bs, ⟨as, ⟨cs, ds, rfl, h⟩, h'⟩, rfl⟩ := hg
      have h : (cs = [] ∨ cs = [.bodyFormal]) ∧ ∀ k ∈ ds, k = .formal := by
        rcases h with h | h
        · exact ⟨.inl h.1, h.2⟩
        · exact ⟨.inr h.1, h.2⟩
      rcases h' with rfl | rfl
      · exact ⟨cs, ds, _, by simp, h.1, h.2, .inl rfl⟩
      · exact ⟨cs, ds, _, by simp, h.1, h.2, .inr rfl⟩
    obtain ⟨as, fs, k, rfl, ha, hfs, hk⟩ := hk
    obtain ⟨_, hw0, bs', hf', rfl⟩ := all₂_cons.1 hf
    obtain ⟨w, rfl, hw⟩ := fit_str.1 hw0
    clear hf hw0
    have hf := hf'
    refine Good.bind (Q := fun s : Stmt P => s.role = .inner ∧ s.Made M U) ?_ fun s hs => hs
    have hd : ∀ {l : List (AttrDef × Bool)} {b : Stmt P}, (∀ a ∈ l, a.1.Made) → (∀ a ∈ l.tail, a.2 = false) →
        (∀ a ∈ l.head?, a.2 = true → a.1.default = none) → b.isBody → b.Made M U →
        Good (fun s : Stmt P => s.role = .inner ∧ s.Made M U)
          (if ¬ (l.map (fun a => a.1.name)).Nodup then .error .syntax
           else
            match l with
            | (a, true) :: as => return .defn pos w none (some a) (as.map Prod.fst) b
            | as => return .defn pos w none none (as.map Prod.fst) b) := by
      intro l b h1 h2 h3 h4 h5
      split
      · exact SetupErr.noConfusion
      rename_i hnd
      simp only [Decidable.not_not] at hnd
      split
      · rename_i a as
        refine ⟨rfl, hw, rfl, ?_, ?_, ?_, h4, h5⟩
        · intro a' ha'
          cases ha'
          exact ⟨h1 (a, true) (by simp), h3 (a, true) (by simp) rfl⟩
        · intro a' ha'
          obtain ⟨x, hx, rfl⟩ := List.mem_map.1 ha'
          exact h1 _ (by simp [hx])
        · simpa [List.map_map, Function.comp_def] using hnd
      · refine ⟨rfl, hw, rfl, by simp, ?_, ?_, h4, h5⟩
        · intro a' ha'
          obtain ⟨x, hx, rfl⟩ := List.mem_map.1 ha'
          exact h1 _ hx
        · simpa [List.map_map, Function.comp_def] using hnd
    rcases ha with rfl | rfl
    · refine (splitDef_fit hfs hk hf).bind fun r hr => ?_
      refine hd (fun a ha => (hr.1 a ha).1) (fun a ha => (hr.1 a (List.mem_of_mem_tail ha)).2) ?_ hr.2.1 hr.2.2
      intro a ha h
      rw [(hr.1 a (List.mem_of_mem_head? ha)).2] at h
      cases h
    · obtain ⟨_, hn0, bs2, hf2, rfl⟩ := all₂_cons.1 hf
      obtain ⟨n, rfl, hn⟩ := fit_bodyFormal.1 hn0
      have h2 : Good (fun r : List (AttrDef × Bool) × Stmt P => ∃ as, r.1 = (⟨n, none, none⟩, true) :: as ∧
          (∀ a ∈ as, a.1.Made ∧ a.2 = false) ∧ r.2.isBody ∧ r.2.Made M U) (splitDef (.attr ⟨some n, none, true⟩ :: bs2)) :=
        (splitDef_fit hfs hk hf2).bind fun r hr => ⟨_, rfl, hr⟩
      refine h2.bind fun r hr => ?_
      obtain ⟨l, b⟩ := r
      obtain ⟨as, rfl, h3, h4, h5⟩ := hr
      refine hd ?_ (fun a ha => (h3 a ha).2) ?_ h4 h5
      · intro a ha
        rcases List.mem_cons.1 ha with rfl | ha
        · exact ⟨hn, rfl, trivial⟩
        · exact (h3 a ha).1
      · intro a ha _
        cases ha
        rfl
  case attr_body =>
    subst hg
    simp only [all₂_cons, all₂_nil, fit_str] at hf
    obtain ⟨_, ⟨w, rfl, hw⟩, _, rfl, rfl⟩ := hf
    exact ⟨rfl, ⟨_, rfl, hw⟩, rfl⟩
  case attr_def =>
    rcases hg with rfl | rfl | rfl
    · simp only [all₂_cons, all₂_nil, fit_str] at hf
      obtain ⟨_, ⟨w, rfl, hw⟩, _, rfl, rfl⟩ := hf
      exact ⟨rfl, ⟨_, rfl, hw⟩, trivial⟩
    · simp only [all₂_cons, all₂_nil, fit_str, fit_expr] at hf
      obtain ⟨_, ⟨w, rfl, hw⟩, _, ⟨_, ⟨r, e, rfl, he, -⟩, _, rfl, rfl⟩, rfl⟩ := hf
      exact ⟨rfl, ⟨_, rfl, hw⟩, he⟩
    · simp only [all₂_cons, all₂_nil, fit_str, fit_expr, fit_qual] at hf
      obtain ⟨_, ⟨w, rfl, hw⟩, _, ⟨_, ⟨r, e, rfl, he, -⟩, _, ⟨_, ⟨q, rfl⟩, _, rfl, rfl⟩, rfl⟩, rfl⟩ := hf
      exact SetupErr.noConfusion
  case attr_named =>
    rcases hg with rfl | rfl
    · simp only [all₂_cons, all₂_nil, fit_str, fit_expr] at hf
      obtain ⟨_, ⟨w, rfl, hw⟩, _, ⟨_, ⟨r, e, rfl, he, -⟩, _, rfl, rfl⟩, rfl⟩ := hf
      exact ⟨fun n h => by cases h; exact hw, _, rfl, he⟩
    · simp only [all₂_cons, all₂_nil, fit_str, fit_expr, fit_qual] at hf
      obtain ⟨_, ⟨w, rfl, hw⟩, _, ⟨_, ⟨r, e, rfl, he, -⟩, _, ⟨_, ⟨q, rfl⟩, _, rfl, rfl⟩, rfl⟩, rfl⟩ := hf
      exact ⟨fun n h => by cases h; exact hw, _, rfl, he⟩
  case attr_unnamed =>
    rcases hg with rfl | rfl
    · simp only [all₂_cons, all₂_nil, fit_expr] at hf
      obtain ⟨_, ⟨r, e, rfl, he, -⟩, _, rfl, rfl⟩ := hf
      exact ⟨by simp, _, rfl, he⟩
    · simp only [all₂_cons, all₂_nil, fit_expr, fit_qual] at hf
      obtain ⟨_, ⟨r, e, rfl, he, -⟩, _, ⟨_, ⟨q, rfl⟩, _, rfl, rfl⟩, rfl⟩ := hf
      exact SetupErr.noConfusion
  case attr_short =>
    have hn : KeyName U (if text.head? = some '.' then s!!"class" else s!!"id") := by
      split <;> simp [KeyName, xmlMid, xmlEnd, xmlStart, azI]
    rcases hg with rfl | rfl
    · simp only [all₂_cons, all₂_nil, fit_expr] at hf
      obtain ⟨_, ⟨r, e, rfl, he, -⟩, _, rfl, rfl⟩ := hf
      exact ⟨fun n h => by cases h; exact hn, _, rfl, he⟩
    · simp only [all₂_cons, all₂_nil, fit_expr, fit_qual] at hf
      obtain ⟨_, ⟨r, e, rfl, he, -⟩, _, ⟨_, ⟨q, rfl⟩, _, rfl, rfl⟩, rfl⟩ := hf
      exact ⟨fun n h => by cases h; exact hn, _, rfl, he⟩
  case block_context =>
    obtain ⟨bs, h, rfl⟩ := hg
    refine (asItemsOf_fit (b := true) (by simpa using h.only (by simp [produces, kindOf])) hf).bind fun is his =>
      ⟨rfl, ?_, by simp, by simp, his.2⟩
    intro h; rw [h] at his; simp at his
  case block_import =>
    obtain ⟨_, ⟨bs, h, rfl⟩, rfl⟩ := hg
    obtain ⟨_, hw0, bs', hf', rfl⟩ := all₂_cons.1 hf
    obtain ⟨w, rfl, hw⟩ := fit_str.1 hw0
    clear hf hw0
    have hf := hf'
    have hi := h.only (k := .item) (by simp [produces])
    refine (asItemsOf_fit (b := false) (by simpa using hi) hf).bind fun is his =>
      ⟨rfl, ?_, by simp, fun n h => by cases h; exact hw, his.2⟩
    intro h; rw [h] at his; simp at his
  case wild_import => exact ⟨rfl, rfl⟩
  case name_import =>
    rcases hg with rfl | rfl
    · simp only [all₂_cons, all₂_nil, fit_str] at hf
      obtain ⟨_, ⟨w, rfl, hw⟩, _, rfl, rfl⟩ := hf
      exact ⟨rfl, hw, by simp, rfl⟩
    · simp only [all₂_cons, all₂_nil, fit_str] at hf
      obtain ⟨_, ⟨w, rfl, hw⟩, _, ⟨_, ⟨w', rfl, hw'⟩, _, rfl, rfl⟩, rfl⟩ := hf
      exact ⟨rfl, hw, fun n h => by cases h; exact hw', rfl⟩
  case cntx_import =>
    rcases hg with rfl | rfl
    · simp only [all₂_cons, all₂_nil, fit_str] at hf
      obtain ⟨_, ⟨w, rfl, hw⟩, _, rfl, rfl⟩ := hf
      exact ⟨rfl, hw, by simp, rfl⟩
    · simp only [all₂_cons, all₂_nil, fit_str] at hf
      obtain ⟨_, ⟨w, rfl, hw⟩, _, ⟨_, ⟨w', rfl, hw'⟩, _, rfl, rfl⟩, rfl⟩ := hf
      exact ⟨rfl, hw, fun n h => by cases h; exact hw', rfl⟩
  case block_struct =>
    rcases hg with (rfl | rfl) | rfl
    · simp only [all₂_cons, all₂_nil, fit_tags, fit_stmt] at hf
      obtain ⟨_, ⟨w, rfl, hw⟩, _, ⟨_, ⟨s, rfl, h1, h2⟩, _, rfl, rfl⟩, rfl⟩ := hf
      exact ⟨rfl, hw, .inl h1, h2⟩
    · simp only [all₂_cons, all₂_nil, fit_tags, fit_stmt] at hf
      obtain ⟨_, ⟨w, rfl, hw⟩, _, ⟨_, ⟨s, rfl, h1, h2⟩, _, rfl, rfl⟩, rfl⟩ := hf
      exact ⟨rfl, hw, .inr h1, h2⟩
    · exact absurd rfl (hc rfl)
  case tags_expand =>
    rcases hg with rfl | ⟨bs, h, rfl⟩
    · simp only [all₂_cons, all₂_nil, fit_nullTag] at hf
      obtain ⟨_, rfl, _, rfl, rfl⟩ := hf
      exact .inl rfl
    · refine (asTags_fit (by simpa using h.only (by simp [produces, kindOf])) hf).bind fun ts hts => .inr ⟨?_, hts.2⟩
      intro h; rw [h] at hts; simp at hts
  case tag_expand =>
    obtain ⟨bs, h, rfl⟩ := hg
    obtain ⟨_, hw0, bs', hf', rfl⟩ := all₂_cons.1 hf
    obtain ⟨w, rfl, hw⟩ := fit_str.1 hw0
    clear hf hw0
    have hf := hf'
    exact (collectAttrs_fit h hf [] [] trivial (by simp)).bind fun r hr => ⟨hw, rfl, hr⟩
  case null => rfl
  case pass => exact ⟨rfl, trivial⟩
  case kwarg =>
    subst hg
    simp only [all₂_cons, all₂_nil, fit_str, fit_expr] at hf
    obtain ⟨_, ⟨w, rfl, hw⟩, _, ⟨_, ⟨r, e, rfl, he, -⟩, _, rfl, rfl⟩, rfl⟩ := hf
    exact ⟨hw, he⟩
  case member =>
    subst hg
    simp only [all₂_cons, all₂_nil, fit_str] at hf
    obtain ⟨_, ⟨w, rfl, hw⟩, _, rfl, rfl⟩ := hf
    exact hw
  case tag_use => exact good_expr ⟨rfl, ht⟩ (by simp)
  case var_use =>
    refine good_expr ⟨rfl, ?_⟩ (by simp)
    rcases ht with ⟨c, s, rfl, hc, hs⟩ | ⟨n, rfl, hn⟩
    · have : c ≠ '$' := by rintro rfl; simp [nameStart, azI] at hc
      simpa [this] using ⟨c, s, rfl, hc, hs⟩
    · simpa using hn
  case margin_out => exact ⟨rfl, fun c hc => ht.2 c (List.dropLast_subset _ hc)⟩
  case escape =>
    rcases ht with rfl | rfl | rfl
    all_goals
      refine ⟨rfl, ?_⟩
      intro c hc
      simp at hc
      subst hc
      refine ⟨by decide, ?_⟩
      exact Bool.eq_false_iff.2 fun hcon => absurd (hM.high _ hcon) (by decide)
  case text_quot1 =>
    simp only [setup, setupExpr]
    split
    · exact ⟨rfl, trivial⟩
    · exact SetupErr.noConfusion
  case text_quot2 =>
    simp only [setup, setupExpr]
    split
    · exact ⟨rfl, trivial⟩
    · exact SetupErr.noConfusion
  all_goals first
    | exact ⟨rfl, ht⟩
    | exact ⟨rfl, trivial⟩
    | exact rfl
    | exact trivial
    | exact good_expr trivial (by simp)
    | (subst hg
       simp only [all₂_cons, all₂_nil, fit_expr] at hf
       obtain ⟨_, ⟨r, e, rfl, he, -⟩, _, rfl, rfl⟩ := hf
       exact good_expr he (by simp))
end
end Verif
