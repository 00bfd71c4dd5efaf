import Verif.Model.Rewrite
import Verif.Spec.Made
import Verif.Lemmas.Peg

/-! Kinds of nodes, and which sequences of kinds the rules of the grammar produce. -/

namespace Verif
open Py Spec

/-! ### Texts -/

/-- Texts described by a regular expression, without regard to boundaries. -/
def RE.Lang : RE → Str → Prop
  | .eps, w => w = []
  | .chr p, w => ∃ c, w = [c] ∧ p c = true
  | .many p, w => ∀ c ∈ w, p c = true
  | .seq a b, w => ∃ u v, w = u ++ v ∧ a.Lang u ∧ b.Lang v
  | .alt a b, w => a.Lang w ∨ b.Lang w
  | .bound _, w => w = []

theorem manyRests_lang (p : Char → Bool) : ∀ (s t : Str), t ∈ manyRests p s → ∃ w, s = w ++ t ∧ ∀ c ∈ w, p c = true
  | [], t, h => by
    simp only [manyRests, List.mem_singleton] at h
    exact ⟨[], by simp [h], by simp⟩
  | c :: s, t, h => by
    simp only [manyRests] at h
    split at h
    · rename_i hc
      rcases List.mem_append.1 h with h | h
      · obtain ⟨w, e, hw⟩ := manyRests_lang p s t h
        refine ⟨c :: w, by simp [e], ?_⟩
        intro d hd
        rcases List.mem_cons.1 hd with rfl | hd
        · exact hc
        · exact hw d hd
      · rw [List.mem_singleton] at h
        exact ⟨[], by simp [h], by simp⟩
    · rw [List.mem_singleton] at h
      exact ⟨[], by simp [h], by simp⟩

theorem RE.rests_lang : ∀ (r : RE) (s t : Str), t ∈ r.rests s → ∃ w, s = w ++ t ∧ r.Lang w
  | .eps, s, t, h => by
    simp only [RE.rests, List.mem_singleton] at h
    exact ⟨[], by simp [h], rfl⟩
  | .chr p, [], t, h => by simp [RE.rests] at h
  | .chr p, c :: s, t, h => by
    simp only [RE.rests] at h
    split at h
    · rw [List.mem_singleton] at h
      exact ⟨[c], by simp [h], c, rfl, ‹_›⟩
    · simp at h
  | .many p, s, t, h => manyRests_lang p s t h
  | .seq a b, s, t, h => by
    simp only [RE.rests, List.mem_flatMap] at h
    obtain ⟨m, h1, h2⟩ := h
    obtain ⟨u, e1, hu⟩ := RE.rests_lang a s m h1
    obtain ⟨v, e2, hv⟩ := RE.rests_lang b m t h2
    exact ⟨u ++ v, by rw [e1, e2, List.append_assoc], u, v, rfl, hu, hv⟩
  | .alt a b, s, t, h => by
    simp only [RE.rests, List.mem_append] at h
    rcases h with h | h
    · obtain ⟨w, e, hw⟩ := RE.rests_lang a s t h
      exact ⟨w, e, .inl hw⟩
    · obtain ⟨w, e, hw⟩ := RE.rests_lang b s t h
      exact ⟨w, e, .inr hw⟩
  | .bound w, s, t, h => by
    simp only [RE.rests] at h
    split at h
    · simp at h
    · rw [List.mem_singleton] at h
      exact ⟨[], by simp [h], rfl⟩

section
variable {N : Type}

mutual
/-- Texts that an expression of the grammar may match. -/
inductive Words (G : N → Peg N) : Peg N → Str → Prop
  | lit (l) : Words G (.lit l) l
  | rx {r w} : r.Lang w → Words G (.rx r) w
  | ref {n w} : Words G (G n) w → Words G (.ref n) w
  | seq {ps w} : WordsSeq G ps w → Words G (.seq ps) w
  | alt {ps p w} : p ∈ ps → Words G p w → Words G (.alt ps) w
  | none {p} : Words G (.opt p) []
  | some {p w} : Words G p w → Words G (.opt p) w
  | star {p w} : WordsStar G p w → Words G (.star p) w
  | plus {p w} : WordsStar G p w → Words G (.plus p) w
  | not {p} : Words G (.not p) []
inductive WordsSeq (G : N → Peg N) : List (Peg N) → Str → Prop
  | nil : WordsSeq G [] []
  | cons {p ps u v} : Words G p u → WordsSeq G ps v → WordsSeq G (p :: ps) (u ++ v)
inductive WordsStar (G : N → Peg N) : Peg N → Str → Prop
  | nil {p} : WordsStar G p []
  | cons {p u v} : Words G p u → WordsStar G p v → WordsStar G p (u ++ v)
end

/-! ### Kinds -/

mutual
/-- Sequences of kinds of nodes that an expression of the grammar may produce, where `Φ` tells what the rules produce. -/
inductive Gen {κ : Type} (Φ : N → List κ → Prop) : Peg N → List κ → Prop
  | lit {l} : Gen Φ (.lit l) []
  | rx {r} : Gen Φ (.rx r) []
  | not {p} : Gen Φ (.not p) []
  | ref {n ks} : Φ n ks → Gen Φ (.ref n) ks
  | seq {ps ks} : GenSeq Φ ps ks → Gen Φ (.seq ps) ks
  | alt {ps p ks} : p ∈ ps → Gen Φ p ks → Gen Φ (.alt ps) ks
  | none {p} : Gen Φ (.opt p) []
  | some {p ks} : Gen Φ p ks → Gen Φ (.opt p) ks
  | star {p ks} : GenStar Φ p ks → Gen Φ (.star p) ks
  | plus {p ks ls} : Gen Φ p ks → GenStar Φ p ls → Gen Φ (.plus p) (ks ++ ls)
inductive GenSeq {κ : Type} (Φ : N → List κ → Prop) : List (Peg N) → List κ → Prop
  | nil : GenSeq Φ [] []
  | cons {p ps ks ls} : Gen Φ p ks → GenSeq Φ ps ls → GenSeq Φ (p :: ps) (ks ++ ls)
inductive GenStar {κ : Type} (Φ : N → List κ → Prop) : Peg N → List κ → Prop
  | nil {p} : GenStar Φ p []
  | cons {p ks ls} : Gen Φ p ks → GenStar Φ p ls → GenStar Φ p (ks ++ ls)
end

variable {κ : Type} {Φ : N → List κ → Prop}

@[simp] theorem gen_lit {l : Str} {ks : List κ} : Gen Φ (.lit l) ks ↔ ks = [] :=
  ⟨fun h => by cases h; rfl, fun h => h ▸ .lit⟩
@[simp] theorem gen_rx {r : RE} {ks : List κ} : Gen Φ (.rx r) ks ↔ ks = [] :=
  ⟨fun h => by cases h; rfl, fun h => h ▸ .rx⟩
@[simp] theorem gen_not {p : Peg N} {ks : List κ} : Gen Φ (.not p) ks ↔ ks = [] :=
  ⟨fun h => by cases h; rfl, fun h => h ▸ .not⟩
@[simp] theorem gen_ref {n : N} {ks : List κ} : Gen Φ (.ref n) ks ↔ Φ n ks :=
  ⟨fun h => by cases h; assumption, .ref⟩
@[simp] theorem gen_seq {ps : List (Peg N)} {ks : List κ} : Gen Φ (.seq ps) ks ↔ GenSeq Φ ps ks :=
  ⟨fun h => by cases h; assumption, .seq⟩
@[simp] theorem gen_alt {ps : List (Peg N)} {ks : List κ} : Gen Φ (.alt ps) ks ↔ ∃ p ∈ ps, Gen Φ p ks :=
  ⟨fun h => by cases h with | alt h1 h2 => exact ⟨_, h1, h2⟩, fun ⟨_, h1, h2⟩ => .alt h1 h2⟩
@[simp] theorem gen_opt {p : Peg N} {ks : List κ} : Gen Φ (.opt p) ks ↔ ks = [] ∨ Gen Φ p ks :=
  ⟨fun h => by cases h with | none => exact .inl rfl | some h => exact .inr h,
    fun h => h.elim (fun h => h ▸ .none) .some⟩
@[simp] theorem gen_star {p : Peg N} {ks : List κ} : Gen Φ (.star p) ks ↔ GenStar Φ p ks :=
  ⟨fun h => by cases h; assumption, .star⟩
@[simp] theorem gen_plus {p : Peg N} {ks : List κ} : Gen Φ (.plus p) ks ↔ ∃ as, Gen Φ p as ∧ ∃ bs, GenStar Φ p bs ∧ ks = as ++ bs :=
  ⟨fun h => by cases h with | plus h1 h2 => exact ⟨_, h1, _, h2, rfl⟩, fun ⟨_, h1, _, h2, e⟩ => e ▸ .plus h1 h2⟩
@[simp] theorem genSeq_nil {ks : List κ} : GenSeq Φ [] ks ↔ ks = [] :=
  ⟨fun h => by cases h; rfl, fun h => h ▸ .nil⟩
@[simp] theorem genSeq_cons {p : Peg N} {ps : List (Peg N)} {ks : List κ} :
    GenSeq Φ (p :: ps) ks ↔ ∃ as, Gen Φ p as ∧ ∃ bs, GenSeq Φ ps bs ∧ ks = as ++ bs :=
  ⟨fun h => by cases h with | cons h1 h2 => exact ⟨_, h1, _, h2, rfl⟩, fun ⟨_, h1, _, h2, e⟩ => e ▸ .cons h1 h2⟩

/-- Repetition of something that is closed under concatenation. -/
theorem GenStar.closed {R : List κ → Prop} (hn : R []) (ha : ∀ as bs, R as → R bs → R (as ++ bs)) {p : Peg N}
    (hp : ∀ ks, Gen Φ p ks → R ks) : ∀ {ks : List κ}, GenStar Φ p ks → R ks
  | _, .nil => hn
  | _, .cons h1 h2 => ha _ _ (hp _ h1) (GenStar.closed hn ha hp h2)

end

theorem Spec.WellNested.append {α : Type} {op cl : Char → α} {Q : α → Prop} {as bs : List α} (h : WellNested op cl Q as)
    (h' : WellNested op cl Q bs) : WellNested op cl Q (as ++ bs) := by
  induction h with
  | nil => exact h'
  | one hq _ ih => exact .one hq ih
  | sub hc h1 _ _ ih2 =>
    rw [List.cons_append, List.append_assoc, List.cons_append]
    exact .sub hc h1 ih2


/-! ### Kinds of the nodes of Hypertag -/

/-- Kinds of nodes. -/
inductive Kind where
  | expr
  | str (t : NT)
  | op
  | neg
  | notKw
  | qual
  | tail
  | kwarg
  | line (k : LineKind)
  | var
  | targets
  | formal
  | bodyFormal
  | attr
  | tag
  | nullTag
  | tags
  | item
  | cntx
  | clause
  | indent (c : Char)
  | dedent (c : Char)
  | stmt (r : Role)
  | document
  deriving DecidableEq

/-- The kind of a node of the given type. -/
def kindOf : NT → Kind
  | .document => .document
  | .block => .stmt .block
  | .block_try | .block_expr | .block_assign | .block_while | .block_for | .block_if | .block_def | .block_context
  | .block_import | .block_comment | .pass | .block_struct => .stmt .inner
  | .clause_if => .clause
  | .clause_else => .stmt .els
  | .targets => .targets
  | .var_def => .var
  | .op_inplace | .op_multiplic | .op_additive | .op_power | .op_shift | .op_comp => .op
  | .attr_body => .bodyFormal
  | .attr_def => .formal
  | .wild_import | .name_import => .item
  | .cntx_import => .cntx
  | .tags_expand => .tags
  | .tag_expand => .tag
  | .null => .nullTag
  | .body_control | .body_struct => .stmt .body
  | .block_embed | .block_verbat | .block_normal | .block_markup => .stmt .text
  | .line_verbat => .line .verbat
  | .line_normal => .line .normal
  | .line_markup => .line .markup
  | .attr_short | .attr_named | .attr_unnamed => .attr
  | .kwarg => .kwarg
  | .call | .index | .member | .partial_call => .tail
  | .qualifier => .qual
  | .neg => .neg
  | .not => .notKw
  | .indent_s => .indent ' '
  | .indent_t => .indent '\t'
  | .dedent_s => .dedent ' '
  | .dedent_t => .dedent '\t'
  | .path_import => .str .path_import
  | .symbol => .str .symbol
  | .name_id => .str .name_id
  | .name_xml => .str .name_xml
  | .text => .str .text
  | .text_quot1 => .str .text_quot1
  | .text_quot2 => .str .text_quot2
  | .margin => .str .margin
  | .margin_out => .str .margin_out
  | .dedent => .str .dedent
  | .append => .str .append
  | .escape => .str .escape
  | _ => .expr

/-- Blocks, possibly indented. -/
def kBlocks : List Kind → Prop := WellNested Kind.indent Kind.dedent (· = .stmt .block)

/-- Lines of text, possibly indented. -/
def kLines (k : LineKind) : List Kind → Prop := WellNested Kind.indent Kind.dedent (fun a => a = .line k ∨ a = .str .margin)

/-- What the rules produce after rewriting. -/
def produces : NT → List Kind → Prop
  -- ignored
  | .nl, ks | .ws, ks | .space, ks | .gap, ks | .comma, ks | .verbatim, ks | .inline_comment, ks
  | .mark_struct, ks | .mark_verbat, ks | .mark_normal, ks | .mark_markup, ks | .mark_embed, ks | .mark_eval, ks
  | .mark_def, ks | .mark_comment, ks => ks = []
  -- reduced
  | .modifier, ks => ks = [.str .dedent] ∨ ks = [.str .append]
  | .block_control, ks => ks = [.stmt .inner]
  | .body_text, ks => ks = [.stmt .text]
  | .block_struct, ks => ks = [.stmt .inner] ∨ ks = [.stmt .text]
  | .generic_control, ks | .generic_struct, ks => ks = [.stmt .text] ∨ ks = [.stmt .body]
  | .special_tag, ks => ks = [.stmt .inner]
  | .target, ks => ks = [.targets] ∨ ks = [.var]
  | .core_blocks, ks | .tail_blocks, ks => kBlocks ks
  | .headline, ks | .head_verbat, ks | .head_normal, ks | .head_markup, ks => ks = [] ∨ ∃ k, ks = [.line k]
  | .item_import, ks => ks = [.item]
  | .rename, ks => ks = [.str .name_id]
  | .try_long, ks => ∃ bs cs, ks = bs ++ cs ∧ (bs = [] ∨ bs = [.stmt .text] ∨ bs = [.stmt .body]) ∧ ∀ k ∈ cs, k = .stmt .els
  | .try_short, ks => ks = [] ∨ ks = [.stmt .inner] ∨ ks = [.stmt .text] ∨ ks = [.stmt .body]
  | .tail_for, ks | .tail_if, ks => ks = [.expr] ∨ ks = [.expr, .stmt .text] ∨ ks = [.expr, .stmt .body]
  | .tail_verbat, ks | .core_verbat, ks => kLines .verbat ks
  | .tail_normal, ks | .core_normal, ks => kLines .normal ks
  | .tail_markup, ks | .core_markup, ks => kLines .markup ks
  | .attrs_def, ks => ∃ bs cs, ks = bs ++ cs ∧ (bs = [] ∨ bs = [.bodyFormal]) ∧ ∀ k ∈ cs, k = .formal
  | .attrs_val, ks => ∀ k ∈ ks, k = .attr
  | .attr_val, ks => ks = [.attr]
  | .value_of_attr, ks | .expr_assign, ks | .embedding, ks | .embedding_braces, ks => ks = [.expr] ∨ ks = [.expr, .qual]
  | .embedding_eval, ks | .expr_root, ks | .subexpr, ks | .atom, ks | .literal, ks | .string, ks => ks = [.expr]
  | .args, ks => ∀ k ∈ ks, k = .expr ∨ k = .kwarg
  | .arg, ks => ks = [.expr] ∨ ks = [.kwarg]
  | .slice, ks => ks = [.expr, .expr] ∨ ks = [.expr, .expr, .expr]
  | .subscript, ks => ks = [.expr] ∨ ks = [.expr, .expr] ∨ ks = [.expr, .expr, .expr]
  | .dict_pair, ks => ks = [.expr, .expr]
  | .trailer, ks | .trailer_filt, ks => ks = [.tail]
  | .string_quot1, ks | .string_quot2, ks => ∀ k ∈ ks, k = .expr ∨ k = .qual ∨ k = .str .escape ∨ k = .str .text_quot1 ∨
      k = .str .text_quot2
  -- not used
  | .op_empty, _ | .number_signed, _ | .name_reserved, _ => True
  | n, ks => ks = [kindOf n]

section
variable {M : Marks} {U : Uni}

theorem kBlocks.append {as bs : List Kind} (h : kBlocks as) (h' : kBlocks bs) : kBlocks (as ++ bs) := WellNested.append h h'
theorem kLines.append {k : LineKind} {as bs : List Kind} (h : kLines k as) (h' : kLines k bs) : kLines k (as ++ bs) :=
  WellNested.append h h'
theorem kBlocks.sub {c : Char} {as : List Kind} (hc : c = ' ' ∨ c = '\t') (h : kBlocks as) :
    kBlocks (.indent c :: (as ++ [.dedent c])) := WellNested.sub hc h .nil
theorem kLines.sub {k : LineKind} {c : Char} {as : List Kind} (hc : c = ' ' ∨ c = '\t') (h : kLines k as) :
    kLines k (.indent c :: (as ++ [.dedent c])) := WellNested.sub hc h .nil

/-- Repetition of nodes of given kinds. -/
theorem GenStar.all {N : Type} {Φ : N → List Kind → Prop} {Q : Kind → Prop} {p : Peg N} (hp : ∀ ks, Gen Φ p ks → ∀ k ∈ ks, Q k)
    {ks : List Kind} (h : GenStar Φ p ks) : ∀ k ∈ ks, Q k := by
  refine h.closed (R := fun ks => ∀ k ∈ ks, Q k) (by simp) ?_ hp
  intro as bs h1 h2 k hk
  rcases List.mem_append.1 hk with hk | hk
  · exact h1 k hk
  · exact h2 k hk

theorem kBlocks_plain {ks : List Kind} (h : ∀ k ∈ ks, k = .stmt .block) : kBlocks ks := by
  induction ks with
  | nil => exact .nil
  | cons k ks ih => exact .one (h k (by simp)) (ih (fun k hk => h k (by simp [hk])))

theorem kLines_star {k : LineKind} {t l : NT} (ht : ∀ ks, produces t ks → kLines k ks) (hl : ∀ ks, produces l ks → ks = [.line k])
    {ks : List Kind} (h : GenStar produces (.alt [.ref t, .seq [.ref .margin, .ref l]]) ks) : kLines k ks := by
  refine h.closed .nil (fun _ _ => kLines.append) ?_
  intro ks h
  simp only [gen_alt, List.mem_cons, List.not_mem_nil, or_false, exists_eq_or_imp, exists_eq_left, gen_ref, gen_seq, genSeq_cons,
    genSeq_nil, List.append_nil] at h
  rcases h with h | ⟨as, h1, bs, ⟨cs, h, ds, rfl, rfl⟩, rfl⟩
  · exact ht _ h
  · rw [hl _ h, show as = [.str .margin] from h1]
    exact .one (.inr rfl) (.one (.inl rfl) .nil)

theorem kLines_head {k : LineKind} {ks : List Kind} (h : kLines k ks) : kLines k (.str .margin :: .line k :: ks) :=
  .one (.inr rfl) (.one (.inl rfl) h)

theorem produces_reduced {n : NT} (hn : isReduced n = true) {ks : List Kind} (h : Gen produces (rule M U n) ks) :
    produces n ks := by
  cases n <;> first | (exact absurd hn (by decide)) | skip
  all_goals simp [rule, produces, kindOf, or_and_right, exists_or] at h
  all_goals simp only [produces]
  case tail_blocks =>
    rcases h with ⟨as, ⟨bs, h, rfl⟩, rfl⟩ | ⟨as, ⟨bs, h, rfl⟩, rfl⟩
    · exact .sub (.inl rfl) h
    · exact .sub (.inr rfl) h
  case core_blocks =>
    rcases h with h | ⟨as, h, rfl⟩
    · exact h
    · exact .one rfl (kBlocks_plain (h.all (by simp [produces, kindOf])))
  case try_long =>
    rcases h with h | ⟨bs, h, rfl⟩ | ⟨bs, h, rfl⟩
    · exact ⟨[], ks, rfl, .inl rfl, h.all (by simp [produces, kindOf])⟩
    · exact ⟨[_], bs, rfl, .inr (.inl rfl), h.all (by simp [produces, kindOf])⟩
    · exact ⟨[_], bs, rfl, .inr (.inr rfl), h.all (by simp [produces, kindOf])⟩
  case try_short => rcases h with h | (h | h) | h <;> simp [h]
  case tail_for => rcases h with (h | h) | h | h <;> simp [h]
  case tail_if => rcases h with (h | h) | h | h <;> simp [h]
  case attrs_def =>
    rcases h with h | ⟨bs, h, rfl⟩
    · exact ⟨[], ks, rfl, .inl rfl, h.all (by simp [produces, kindOf])⟩
    · exact ⟨[_], bs, rfl, .inr rfl, h.all (by simp [produces, kindOf])⟩
  case head_verbat => rcases h with h | h <;> simp [h]
  case head_normal => rcases h with h | h <;> simp [h]
  case head_markup => rcases h with h | h <;> simp [h]
  case tail_verbat =>
    rcases h with ⟨as, ⟨bs, h, rfl⟩, rfl⟩ | ⟨as, ⟨bs, h, rfl⟩, rfl⟩
    · exact .sub (.inl rfl) h
    · exact .sub (.inr rfl) h
  case tail_normal =>
    rcases h with ⟨as, ⟨bs, h, rfl⟩, rfl⟩ | ⟨as, ⟨bs, h, rfl⟩, rfl⟩
    · exact .sub (.inl rfl) h
    · exact .sub (.inr rfl) h
  case tail_markup =>
    rcases h with ⟨as, ⟨bs, h, rfl⟩, rfl⟩ | ⟨as, ⟨bs, h, rfl⟩, rfl⟩
    · exact .sub (.inl rfl) h
    · exact .sub (.inr rfl) h
  case core_verbat =>
    rcases h with ⟨as, h, bs, h', rfl⟩ | ⟨bs, h', rfl⟩
    · exact h.append (kLines_star (t := .tail_verbat) (l := .line_verbat) (fun _ h => h) (fun _ h => h) h')
    · exact kLines_head (kLines_star (t := .tail_verbat) (l := .line_verbat) (fun _ h => h) (fun _ h => h) h')
  case core_normal =>
    rcases h with ⟨as, h, bs, h', rfl⟩ | ⟨bs, h', rfl⟩
    · exact h.append (kLines_star (t := .tail_normal) (l := .line_normal) (fun _ h => h) (fun _ h => h) h')
    · exact kLines_head (kLines_star (t := .tail_normal) (l := .line_normal) (fun _ h => h) (fun _ h => h) h')
  case core_markup =>
    rcases h with ⟨as, h, bs, h', rfl⟩ | ⟨bs, h', rfl⟩
    · exact h.append (kLines_star (t := .tail_markup) (l := .line_markup) (fun _ h => h) (fun _ h => h) h')
    · exact kLines_head (kLines_star (t := .tail_markup) (l := .line_markup) (fun _ h => h) (fun _ h => h) h')
  case embedding => rcases h with (h | h) | h <;> simp [h]
  case value_of_attr => rcases h with (h | h) | h <;> simp [h]
  case arg => rcases h with h | h <;> simp [h]
  case subscript => rcases h with (h | h) | h <;> simp [h]
  case attrs_val =>
    obtain ⟨as, h1, bs, h2, rfl⟩ := h
    intro k hk
    have hs : ∀ ks, GenStar produces (.ref .attr_short) ks → ∀ k ∈ ks, k = .attr :=
      fun ks h => h.all (by simp [produces, kindOf])
    rcases List.mem_append.1 hk with hk | hk
    · exact hs as h1 k hk
    · refine h2.all (Q := (· = .attr)) ?_ k hk
      intro ks h
      simp [produces, kindOf, or_and_right, exists_or] at h
      rcases h with rfl | ⟨bs, h, rfl⟩
      · simp
      · simpa using hs _ h
  case args =>
    have hs : ∀ ks, GenStar produces (.seq [.ref .comma, .ref .arg]) ks → ∀ k ∈ ks, k = .expr ∨ k = .kwarg := by
      intro ks h
      refine h.all ?_
      intro ks h
      simp [produces] at h
      rcases h with rfl | rfl <;> simp
    rcases h with ⟨bs, h, rfl⟩ | ⟨bs, h, rfl⟩
    · simpa using hs _ h
    · simpa using hs _ h
  case string_quot1 =>
    refine h.all ?_
    intro ks h
    simp [produces, kindOf] at h
    rcases h with rfl | (rfl | rfl) | rfl <;> simp
  case string_quot2 =>
    refine h.all ?_
    intro ks h
    simp [produces, kindOf] at h
    rcases h with rfl | (rfl | rfl) | rfl <;> simp
  all_goals exact h

end
end Verif
