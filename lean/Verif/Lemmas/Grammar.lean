import Verif.Model.Parse
import Verif.Lemmas.Peg

/-
The grammar of Hypertag has no left recursion: the certificate.
-/

namespace Verif
open Py

/-- Rules that can match the empty text. -/
def nulRule : NT → Bool
  | .document | .attrs_def | .generic_struct | .body_struct | .attrs_val | .slice_value | .ws => true
  | _ => false

/-- A rule starts only with rules of lower ranks. -/
def rankRule : NT → Nat
  | .tail_blocks | .modifier | .block_try | .block_expr | .block_assign | .clause_if
  | .clause_else | .block_def | .attrs_def | .attr_body | .rename | .special_tag | .head_verbat
  | .head_normal | .head_markup | .block_embed | .block_comment | .inline_comment
  | .block_verbat | .block_normal | .block_markup | .tail_verbat | .tail_normal | .tail_markup
  | .line_verbat | .embedding_eval | .attrs_val | .attr_named | .tag_use | .trailer
  | .trailer_filt | .symbol | .name_id | .number_signed | .string_format | .margin_out
  | .margin | .comma => 1
  | .block | .block_control | .var_def | .attr_def | .cntx_import | .name_import | .tag_expand
  | .body_control | .body_text | .headline | .core_verbat | .core_normal | .core_markup
  | .embedding | .kwarg | .var_use | .string => 2
  | .core_blocks | .target | .item_import | .tags_expand | .generic_control | .body_struct
  | .line_markup | .factor_var | .literal => 3
  | .document | .targets | .block_struct | .generic_struct | .line_normal | .expr_var | .atom => 4
  | .factor_strict | .factor_filt | .factor => 5
  | .expr_factor | .expr_strict | .pow_expr | .filter => 6
  | .value_of_attr | .term => 7
  | .attr_unnamed | .arith_expr => 8
  | .attr_val | .shift_expr => 9
  | .and_expr => 10
  | .xor_expr => 11
  | .or_expr => 12
  | .expr_bitwise | .pipeline => 13
  | .dict_pair | .concat_expr | .slice_value => 14
  | .comparison | .slice => 15
  | .not_test => 16
  | .and_test => 17
  | .or_test => 18
  | .ifelse_test => 19
  | .expr_root => 20
  | .expr => 21
  | .tail_if | .arg | .expr_tuple => 22
  | .args | .expr_augment => 23
  | .expr_assign | .tail_for | .subscript => 24
  | _ => 0

theorem word_nullable (c : Char) (s : Str) : (RE.word (c :: s)).nullable = false := rfl

theorem rule_nullable (M : Marks) (U : Uni) (n : NT) :
    (rule M U n).nullable nulRule = true → nulRule n = true := by
  cases n <;> first | (intro _; rfl) | (intro h; revert h; exact (fun h => by cases h))

theorem rule_left (M : Marks) (U : Uni) (n : NT) :
    (rule M U n).leftBelow nulRule rankRule (rankRule n) = true := by
  cases n <;> rfl

theorem rule_size (M : Marks) (U : Uni) (n : NT) : (rule M U n).size ≤ 30 := by
  cases n <;> exact Nat.le_of_ble_eq_true rfl

theorem rankRule_lt (n : NT) : rankRule n < 25 := by cases n <;> decide

/-- The grammar has no left recursion. -/
theorem rule_noLeftRec (M : Marks) (U : Uni) : NoLeftRec (rule M U) nulRule rankRule 25 30 where
  nullable := rule_nullable M U
  left := rule_left M U
  rank_lt := rankRule_lt
  size_le := rule_size M U

end Verif
