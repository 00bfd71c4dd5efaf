import Verif.Model.Peg
import Verif.Model.Preprocess

/-
The grammar: `src/hypertag/core/grammar.py`, lines 9-303. `rule` is the text of the grammar, rule by
rule. In grammar.py a percent sign is written `%%`; the marks are inserted by
`Grammar.__init__`, ast.py:171-175.
-/

namespace Verif
open Py

/-- Classes of characters of Python's `re` beyond ASCII: `\d`, `\w`, and the two classes of
`xml_chars.py` under the flag `i`. Only their values on characters from U+0080 on are used; the
theorems hold for any choice. -/
structure Uni where
  digit : Char → Bool
  word : Char → Bool
  xmlStart : Char → Bool
  xmlChar : Char → Bool

/-- `0-9` -/
def ascDigit (c : Char) : Bool := 48 ≤ c.toNat && c.toNat ≤ 57

/-- `a-z` under the flag `i`: the letters of ASCII and U+0130, U+0131, U+017F, U+212A. -/
def azI (c : Char) : Bool :=
  let n := c.toNat
  (97 ≤ n && n ≤ 122) || (65 ≤ n && n ≤ 90) || n == 0x130 || n == 0x131 || n == 0x17F || n == 0x212A

/-- `\d` -/
def reDigit (U : Uni) (c : Char) : Bool := ascDigit c || (128 ≤ c.toNat && U.digit c)

/-- `\w` -/
def reWord (U : Uni) (c : Char) : Bool :=
  ascDigit c || azI c || c == '_' || (128 ≤ c.toNat && U.word c)

/-- `[a-z_]` under the flag `i`. -/
def nameStart (c : Char) : Bool := azI c || c == '_'

/-- `[a-z0-9_]` under the flag `i`. -/
def nameChar (c : Char) : Bool := azI c || ascDigit c || c == '_'

/-- Blank or tab. -/
def isBlank (c : Char) : Bool := c == ' ' || c == '\t'

/-- `XML_StartChar`, xml_chars.py:14. -/
def xmlStart (U : Uni) (c : Char) : Bool :=
  c == '_' || azI c || (128 ≤ c.toNat && U.xmlStart c)

/-- `XML_EndChar`, xml_chars.py:20. -/
def xmlEnd (U : Uni) (c : Char) : Bool :=
  xmlStart U c || ascDigit c || c == '.' || c == '-' || (128 ≤ c.toNat && U.xmlChar c)

/-- `XML_Char`, xml_chars.py:17. -/
def xmlMid (U : Uni) (c : Char) : Bool := xmlEnd U c || c == ':'

/-- grammar.py:38 -/
def reInplace : RE :=
  RE.alts [RE.word (s!!"//"), RE.word (s!!"%"), RE.word (s!!"<<"), RE.word (s!!">>"),
    .chr (fun c => (s!!"-+*/&|^").elem c)]

/-- grammar.py:64 -/
def rePath : RE := RE.many1 (fun c => !(isSpace c || c == '"' || c == '\''))

/-- grammar.py:133 -/
def reComment : RE := RE.alts [RE.word (s!!"--"), RE.word (s!!"#")]

/-- grammar.py:135 -/
def reGap : RE := .chr isBlank

/-- grammar.py:152 -/
def reShort : RE := RE.many1 (fun c => azI c || ascDigit c || c == '_' || c == '-')

/-- grammar.py:234 -/
def reQualifier : RE := .chr (fun c => c == '?' || c == '!')

/-- grammar.py:249. The class `\s` contains the newline. -/
def reComp : RE :=
  RE.alts [RE.word (s!!"=="), RE.word (s!!"!="), RE.word (s!!"<>"), RE.word (s!!">="),
    RE.word (s!!"<="), RE.word (s!!"<"), RE.word (s!!">"),
    .seq (RE.word (s!!"not")) (.seq (RE.many1 isSpace) (RE.word (s!!"in"))),
    .seq (RE.word (s!!"is")) (.seq (RE.many1 isSpace) (RE.word (s!!"not"))),
    RE.word (s!!"in"), RE.word (s!!"is")]

/-- grammar.py:254 -/
def reName : RE := .seq (.chr nameStart) (.many nameChar)

/-- grammar.py:255 -/
def reservedNames : List Str :=
  [s!!"from", s!!"import", s!!"if", s!!"else", s!!"elif", s!!"try", s!!"for", s!!"while", s!!"break",
    s!!"continue", s!!"pass", s!!"is", s!!"in", s!!"not", s!!"and", s!!"or"]

/-- grammar.py:255 -/
def reReserved (U : Uni) : RE := .seq (RE.alts (reservedNames.map RE.word)) (.bound (reWord U))

/-- grammar.py:259 -/
def reXml (U : Uni) : RE :=
  .seq (.chr (xmlStart U)) (RE.opt (.seq (.many (xmlMid U)) (.chr (xmlEnd U))))

/-- grammar.py:267 -/
def reNumber (U : Uni) : RE :=
  .seq
    (.alt (.seq (.chr (· == '.')) (RE.many1 (reDigit U)))
      (.seq (RE.many1 (reDigit U)) (RE.opt (.seq (.chr (· == '.')) (.many (reDigit U))))))
    (RE.opt (.seq (.chr (fun c => c == 'e' || c == 'E'))
      (.seq (RE.opt (.chr (fun c => c == '+' || c == '-'))) (RE.many1 (reDigit U)))))

/-- grammar.py:266 -/
def reSign : RE := RE.opt (.chr (fun c => c == '+' || c == '-'))

/-- grammar.py:273. The string may contain newlines, and characters that encode indentation. -/
def reRaw (q : Char) : RE := .seq (RE.word ['r', q]) (.seq (.many (· != q)) (.chr (· == q)))

/-- grammar.py:282 -/
def reEscape : RE := RE.alts [RE.word (s!!"$$"), RE.word (s!!"{{"), RE.word (s!!"}}")]

/-- Characters of a line of text that are not excluded, grammar.py:284-287. -/
def lineChar (M : Marks) (excluded : List Char) (c : Char) : Bool :=
  !(c == M.indentS || c == M.dedentS || c == M.indentT || c == M.dedentT || c == '\n' ||
    excluded.elem c)

/-- grammar.py:284-287 -/
def reLine (M : Marks) (excluded : List Char) : RE := RE.many1 (lineChar M excluded)

/-- grammar.py:296 -/
def reNl : RE := RE.many1 (· == '\n')

/-- grammar.py:299 -/
def reSpace : RE := RE.many1 isBlank

/-- grammar.py:300 -/
def reWs : RE := .many isBlank

/-- Names of the rules, in the order of grammar.py. -/
inductive NT where
  | document | tail_blocks | core_blocks | block | modifier | dedent | append | block_control
  | block_try | try_long | try_short | block_expr | block_assign | expr_assign | op_inplace
  | block_while | block_for | block_if | clause_if | clause_else | targets | target | var_def
  | tail_for | tail_if | block_def | attrs_def | attr_body | attr_def | block_context
  | block_import | path_import | item_import | wild_import | cntx_import | name_import | rename
  | block_struct | tags_expand | tag_expand | special_tag | null | pass | generic_control
  | generic_struct | body_control | body_struct | body_text | headline | head_verbat
  | head_normal | head_markup | block_embed | block_comment | inline_comment | block_verbat
  | block_normal | block_markup | tail_verbat | tail_normal | tail_markup | core_verbat
  | core_normal | core_markup | line_verbat | line_normal | line_markup | mark_struct
  | mark_verbat | mark_normal | mark_markup | mark_def | mark_eval | mark_embed | mark_comment
  | gap | embedding | embedding_braces | embedding_eval | attrs_val | attr_val | attr_short
  | attr_short_lit | attr_named | attr_unnamed | value_of_attr | args | arg | kwarg | expr
  | expr_var | expr_factor | expr_strict | expr_augment | expr_tuple | expr_bitwise | subexpr
  | tag_use | var_use | tuple | list | set | dict | dict_pair | atom | factor_var | factor_strict
  | factor_filt | factor | pow_expr | term | arith_expr | shift_expr | and_expr | xor_expr
  | or_expr | pipeline | concat_expr | comparison | not_test | and_test | or_test | ifelse_test
  | expr_root | slice_value | slice | subscript | call | index | member | trailer | trailer_filt
  | partial_call | filter | qualifier | op_power | neg | op_multiplic | op_additive | op_shift
  | op_empty | not | op_comp | symbol | name_id | name_reserved | name_xml | literal
  | number_signed | number | boolean | none | string | string_raw | string_format | string_quot1
  | string_quot2 | escape | verbatim | text | text_quot1 | text_quot2 | indent_s | dedent_s
  | indent_t | dedent_t | margin_out | margin | nl | comma | space | ws
  deriving DecidableEq, Repr

/-- The rules, grammar.py:17-300; the line of each rule is given at its end. -/
def rule (M : Marks) (U : Uni) : NT → Peg NT
  | .document => .seq [.opt (.ref .core_blocks), .opt (.ref .margin)]   -- 17
  | .tail_blocks =>   -- 19
      .alt [.seq [.ref .indent_s, .ref .core_blocks, .ref .dedent_s], .seq [.ref .indent_t,
        .ref .core_blocks, .ref .dedent_t]]
  | .core_blocks => .alt [.ref .tail_blocks, .plus (.ref .block)]   -- 20
  | .block =>   -- 22
      .seq [.ref .margin_out, .opt (.seq [.ref .modifier, .ref .ws]), .alt [.ref .block_control,
        .ref .block_def, .ref .block_context, .ref .block_import, .ref .block_struct,
        .ref .block_comment, .ref .special_tag]]
  | .modifier => .alt [.ref .dedent, .ref .append]   -- 23
  | .dedent => .lit (s!!"<")   -- 24
  | .append => .lit (s!!"...")   -- 25
  | .block_control =>   -- 29
      .alt [.ref .block_assign, .ref .block_expr, .ref .block_if, .ref .block_try, .ref .block_for,
        .ref .block_while]
  | .block_try => .alt [.ref .try_long, .ref .try_short]   -- 31
  | .try_long => .seq [.lit (s!!"try"), .opt (.ref .generic_control), .star (.ref .clause_else)]   -- 32
  | .try_short => .seq [.lit (s!!"?"), .ref .ws, .opt (.alt [.ref .block_struct, .ref .body_control])]   -- 33
  | .block_expr => .seq [.ref .mark_eval, .ref .expr_assign]   -- 35
  | .block_assign =>   -- 36
      .seq [.ref .mark_eval, .ref .ws, .ref .targets, .ref .ws, .opt (.ref .op_inplace), .lit (s!!"="),
        .ref .expr_assign]
  | .expr_assign =>   -- 37
      .seq [.ref .ws, .alt [.ref .expr_augment, .ref .embedding], .opt (.ref .inline_comment)]
  | .op_inplace => .rx reInplace   -- 38
  | .block_while => .seq [.lit (s!!"while"), .ref .clause_if, .opt (.ref .clause_else)]   -- 40
  | .block_for =>   -- 41
      .seq [.lit (s!!"for"), .ref .space, .ref .targets, .ref .space, .lit (s!!"in"), .ref .space,
        .ref .tail_for, .opt (.ref .clause_else)]
  | .block_if =>   -- 42
      .seq [.lit (s!!"if"), .ref .clause_if, .star (.seq [.ref .nl, .lit (s!!"elif"),
        .ref .clause_if]), .opt (.ref .clause_else)]
  | .clause_if => .seq [.ref .space, .ref .tail_if]   -- 44
  | .clause_else => .seq [.ref .nl, .lit (s!!"else"), .opt (.ref .generic_control)]   -- 45
  | .targets =>   -- 47
      .seq [.ref .target, .star (.seq [.ref .comma, .ref .target]), .opt (.seq [.ref .ws,
        .lit (s!!",")])]
  | .target =>   -- 48
      .alt [.seq [.lit (s!!"("), .ref .ws, .ref .targets, .ref .ws, .lit (s!!")")], .ref .var_def]
  | .var_def => .seq [.ref .name_id, .lit []]   -- 49
  | .tail_for =>   -- 51
      .alt [.seq [.ref .expr_factor, .ref .generic_control], .seq [.ref .expr_augment,
        .opt (.ref .body_control)]]
  | .tail_if =>   -- 52
      .alt [.seq [.ref .expr_factor, .ref .generic_control], .seq [.ref .expr,
        .opt (.ref .body_control)]]
  | .block_def =>   -- 56
      .seq [.ref .mark_def, .ref .ws, .ref .name_id, .ref .attrs_def, .ref .generic_struct]
  | .attrs_def =>   -- 57
      .seq [.opt (.seq [.ref .space, .ref .attr_body]), .star (.seq [.ref .space, .ref .attr_def])]
  | .attr_body => .seq [.ref .mark_embed, .ref .ws, .ref .name_id]   -- 59
  | .attr_def =>   -- 60
      .seq [.ref .name_id, .opt (.seq [.ref .ws, .lit (s!!"="), .ref .ws, .ref .value_of_attr])]
  | .block_context =>   -- 62
      .seq [.lit (s!!"context"), .ref .space, .ref .cntx_import, .star (.seq [.ref .comma,
        .ref .cntx_import]), .opt (.ref .inline_comment)]
  | .block_import =>   -- 63
      .seq [.lit (s!!"from"), .ref .space, .ref .path_import, .ref .space, .lit (s!!"import"),
        .ref .space, .ref .item_import, .star (.seq [.ref .comma, .ref .item_import]),
        .opt (.ref .inline_comment)]
  | .path_import => .rx rePath   -- 64
  | .item_import => .alt [.ref .wild_import, .ref .name_import]   -- 65
  | .wild_import => .lit (s!!"*")   -- 66
  | .cntx_import => .seq [.ref .symbol, .opt (.ref .rename)]   -- 67
  | .name_import => .seq [.ref .symbol, .opt (.ref .rename)]   -- 68
  | .rename => .seq [.ref .space, .lit (s!!"as"), .ref .space, .ref .name_id]   -- 69
  | .block_struct => .alt [.seq [.ref .tags_expand, .ref .generic_struct], .ref .body_text]   -- 74
  | .tags_expand =>   -- 76
      .alt [.ref .null, .seq [.ref .tag_expand, .star (.seq [.ref .ws, .ref .mark_struct, .ref .ws,
        .ref .tag_expand])]]
  | .tag_expand => .seq [.ref .name_id, .ref .attrs_val]   -- 77
  | .special_tag => .seq [.ref .pass, .lit []]   -- 79
  | .null => .lit (s!!".")   -- 81
  | .pass => .lit (s!!"pass")   -- 82
  | .generic_control => .alt [.seq [.ref .ws, .ref .body_text], .ref .body_control]   -- 90
  | .generic_struct => .alt [.seq [.ref .ws, .ref .body_text], .ref .body_struct]   -- 91
  | .body_control =>   -- 93
      .alt [.seq [.ref .ws, .ref .mark_struct, .opt (.ref .inline_comment), .opt (.ref .tail_blocks)],
        .seq [.opt (.ref .inline_comment), .ref .tail_blocks]]
  | .body_struct =>   -- 94
      .seq [.opt (.seq [.ref .ws, .ref .mark_struct]), .opt (.alt [.seq [.ref .ws, .ref .headline],
        .ref .inline_comment]), .opt (.ref .tail_blocks)]
  | .body_text => .alt [.ref .block_verbat, .ref .block_normal, .ref .block_markup, .ref .block_embed]   -- 96
  | .headline => .alt [.ref .head_verbat, .ref .head_normal, .ref .head_markup]   -- 97
  | .head_verbat => .seq [.ref .mark_verbat, .opt (.ref .gap), .opt (.ref .line_verbat)]   -- 99
  | .head_normal => .seq [.ref .mark_normal, .opt (.ref .gap), .opt (.ref .line_normal)]   -- 100
  | .head_markup => .seq [.ref .mark_markup, .opt (.ref .gap), .opt (.ref .line_markup)]   -- 101
  | .block_embed => .seq [.ref .mark_embed, .ref .ws, .ref .expr, .opt (.ref .inline_comment)]   -- 105
  | .block_comment => .seq [.ref .mark_comment, .opt (.ref .line_verbat), .opt (.ref .tail_verbat)]   -- 106
  | .inline_comment => .seq [.ref .ws, .ref .mark_comment, .opt (.ref .verbatim)]   -- 107
  | .block_verbat => .seq [.ref .mark_verbat, .opt (.ref .line_verbat), .opt (.ref .tail_verbat)]   -- 109
  | .block_normal => .seq [.ref .mark_normal, .opt (.ref .line_normal), .opt (.ref .tail_normal)]   -- 110
  | .block_markup => .seq [.ref .mark_markup, .opt (.ref .line_markup), .opt (.ref .tail_markup)]   -- 111
  | .tail_verbat =>   -- 113
      .alt [.seq [.ref .indent_s, .ref .core_verbat, .ref .dedent_s], .seq [.ref .indent_t,
        .ref .core_verbat, .ref .dedent_t]]
  | .tail_normal =>   -- 114
      .alt [.seq [.ref .indent_s, .ref .core_normal, .ref .dedent_s], .seq [.ref .indent_t,
        .ref .core_normal, .ref .dedent_t]]
  | .tail_markup =>   -- 115
      .alt [.seq [.ref .indent_s, .ref .core_markup, .ref .dedent_s], .seq [.ref .indent_t,
        .ref .core_markup, .ref .dedent_t]]
  | .core_verbat => .plus (.alt [.ref .tail_verbat, .seq [.ref .margin, .ref .line_verbat]])   -- 117
  | .core_normal => .plus (.alt [.ref .tail_normal, .seq [.ref .margin, .ref .line_normal]])   -- 118
  | .core_markup => .plus (.alt [.ref .tail_markup, .seq [.ref .margin, .ref .line_markup]])   -- 119
  | .line_verbat => .seq [.ref .verbatim, .lit []]   -- 121
  | .line_normal => .seq [.ref .line_markup, .lit []]   -- 122
  | .line_markup => .plus (.alt [.ref .escape, .ref .embedding, .ref .text])   -- 123
  | .mark_struct => .lit (s!!":")   -- 125
  | .mark_verbat => .lit (s!!"!")   -- 126
  | .mark_normal => .lit (s!!"|")   -- 127
  | .mark_markup => .lit (s!!"/")   -- 128
  | .mark_def => .lit (s!!"%")   -- 130
  | .mark_eval => .lit (s!!"$")   -- 131
  | .mark_embed => .lit (s!!"@")   -- 132
  | .mark_comment => .rx reComment   -- 133
  | .gap => .rx reGap   -- 135
  | .embedding => .alt [.ref .embedding_braces, .ref .embedding_eval]   -- 140
  | .embedding_braces =>   -- 141
      .seq [.lit (s!!"{"), .ref .ws, .ref .expr_augment, .ref .ws, .lit (s!!"}"),
        .opt (.ref .qualifier)]
  | .embedding_eval => .seq [.ref .mark_eval, .not (.ref .mark_eval), .ref .expr_var]   -- 142
  | .attrs_val =>   -- 148
      .seq [.star (.ref .attr_short), .star (.seq [.ref .space, .alt [.ref .attr_val,
        .plus (.ref .attr_short)]])]
  | .attr_val => .alt [.ref .attr_named, .ref .attr_unnamed]   -- 149
  | .attr_short =>   -- 151
      .seq [.alt [.lit (s!!"."), .lit (s!!"#")], .alt [.ref .attr_short_lit, .ref .embedding]]
  | .attr_short_lit => .rx reShort   -- 152
  | .attr_named => .seq [.ref .name_xml, .ref .ws, .lit (s!!"="), .ref .ws, .ref .value_of_attr]   -- 153
  | .attr_unnamed => .seq [.ref .value_of_attr, .lit []]   -- 154
  | .value_of_attr => .alt [.ref .embedding, .ref .expr_strict]   -- 155
  | .args =>   -- 159
      .seq [.ref .arg, .star (.seq [.ref .comma, .ref .arg]), .opt (.seq [.ref .ws, .lit (s!!",")])]
  | .arg => .alt [.ref .kwarg, .ref .expr]   -- 160
  | .kwarg => .seq [.ref .name_id, .ref .ws, .lit (s!!"="), .ref .ws, .ref .expr]   -- 161
  | .expr => .seq [.ref .expr_root, .lit []]   -- 172
  | .expr_var => .seq [.ref .factor_var, .lit []]   -- 173
  | .expr_factor => .seq [.ref .factor, .lit []]   -- 174
  | .expr_strict => .seq [.ref .factor_strict, .lit []]   -- 175
  | .expr_augment => .alt [.ref .expr_tuple, .ref .expr_root]   -- 176
  | .expr_tuple =>   -- 177
      .seq [.ref .expr, .ref .ws, .lit (s!!","), .star (.seq [.ref .ws, .ref .expr, .ref .ws,
        .lit (s!!",")]), .opt (.seq [.ref .ws, .ref .expr])]
  | .expr_bitwise => .seq [.ref .or_expr, .lit []]   -- 178
  | .subexpr => .seq [.lit (s!!"("), .ref .ws, .ref .expr, .ref .ws, .lit (s!!")")]   -- 180
  | .tag_use => .seq [.ref .mark_def, .ref .name_id, .lit []]   -- 182
  | .var_use => .seq [.opt (.ref .mark_eval), .ref .name_id, .lit []]   -- 183
  | .tuple =>   -- 184
      .seq [.lit (s!!"("), .ref .ws, .opt (.seq [.plus (.seq [.ref .expr, .ref .comma]),
        .opt (.seq [.ref .expr, .ref .ws])]), .lit (s!!")")]
  | .list =>   -- 185
      .seq [.lit (s!!"["), .ref .ws, .star (.seq [.ref .expr, .ref .comma]), .opt (.seq [.ref .expr,
        .ref .ws]), .lit (s!!"]")]
  | .set =>   -- 186
      .seq [.lit (s!!"{"), .ref .ws, .ref .expr, .star (.seq [.ref .comma, .ref .expr]), .ref .ws,
        .opt (.seq [.lit (s!!","), .ref .ws]), .lit (s!!"}")]
  | .dict =>   -- 187
      .seq [.lit (s!!"{"), .ref .ws, .star (.seq [.ref .dict_pair, .ref .comma]),
        .opt (.seq [.ref .dict_pair, .ref .ws]), .lit (s!!"}")]
  | .dict_pair => .seq [.ref .expr_bitwise, .ref .ws, .lit (s!!":"), .ref .ws, .ref .expr]   -- 188
  | .atom =>   -- 190
      .alt [.ref .literal, .ref .var_use, .ref .tag_use, .ref .subexpr, .ref .tuple, .ref .list,
        .ref .dict, .ref .set]
  | .factor_var => .seq [.ref .var_use, .star (.ref .trailer), .opt (.ref .qualifier)]   -- 191
  | .factor_strict => .seq [.ref .atom, .star (.ref .trailer), .opt (.ref .qualifier)]   -- 192
  | .factor_filt => .seq [.ref .atom, .star (.ref .trailer_filt)]   -- 193
  | .factor => .seq [.ref .atom, .star (.seq [.ref .ws, .ref .trailer]), .opt (.ref .qualifier)]   -- 194
  | .pow_expr => .seq [.ref .factor, .star (.seq [.ref .ws, .ref .op_power, .ref .ws, .ref .factor])]   -- 196
  | .term =>   -- 197
      .seq [.ref .pow_expr, .star (.seq [.ref .ws, .ref .op_multiplic, .ref .ws, .ref .pow_expr])]
  | .arith_expr =>   -- 198
      .seq [.opt (.ref .neg), .ref .ws, .ref .term, .star (.seq [.ref .ws, .ref .op_additive, .ref .ws,
        .ref .term])]
  | .shift_expr =>   -- 199
      .seq [.ref .arith_expr, .star (.seq [.ref .ws, .ref .op_shift, .ref .ws, .ref .arith_expr])]
  | .and_expr =>   -- 201
      .seq [.ref .shift_expr, .star (.seq [.ref .ws, .lit (s!!"&"), .ref .ws, .ref .shift_expr])]
  | .xor_expr =>   -- 202
      .seq [.ref .and_expr, .star (.seq [.ref .ws, .lit (s!!"^"), .ref .ws, .ref .and_expr])]
  | .or_expr =>   -- 203
      .seq [.ref .xor_expr, .star (.seq [.ref .ws, .lit (s!!"|"), .ref .ws, .ref .xor_expr])]
  | .pipeline => .seq [.ref .or_expr, .star (.seq [.ref .ws, .lit (s!!":"), .ref .ws, .ref .filter])]   -- 205
  | .concat_expr => .seq [.ref .pipeline, .star (.seq [.ref .space, .ref .pipeline])]   -- 206
  | .comparison =>   -- 208
      .seq [.ref .concat_expr, .star (.seq [.ref .ws, .ref .op_comp, .ref .ws, .ref .concat_expr])]
  | .not_test => .seq [.star (.seq [.ref .not, .ref .space]), .ref .comparison]   -- 209
  | .and_test =>   -- 210
      .seq [.ref .not_test, .star (.seq [.ref .space, .lit (s!!"and"), .ref .space, .ref .not_test])]
  | .or_test =>   -- 211
      .seq [.ref .and_test, .star (.seq [.ref .space, .lit (s!!"or"), .ref .space, .ref .and_test])]
  | .ifelse_test =>   -- 212
      .seq [.ref .or_test, .opt (.seq [.ref .space, .lit (s!!"if"), .ref .space, .ref .or_test,
        .opt (.seq [.ref .space, .lit (s!!"else"), .ref .space, .ref .ifelse_test])])]
  | .expr_root => .seq [.ref .ifelse_test, .lit []]   -- 216
  | .slice_value => .seq [.ref .ws, .opt (.seq [.ref .expr_bitwise, .ref .ws])]   -- 221
  | .slice =>   -- 222
      .seq [.ref .slice_value, .lit (s!!":"), .ref .slice_value, .opt (.seq [.lit (s!!":"),
        .ref .slice_value])]
  | .subscript => .alt [.ref .slice, .seq [.ref .ws, .ref .expr_augment, .ref .ws]]   -- 223
  | .call => .seq [.lit (s!!"("), .ref .ws, .opt (.seq [.ref .args, .ref .ws]), .lit (s!!")")]   -- 225
  | .index => .seq [.lit (s!!"["), .ref .subscript, .lit (s!!"]")]   -- 226
  | .member => .seq [.lit (s!!"."), .ref .ws, .ref .name_id]   -- 227
  | .trailer => .alt [.ref .call, .ref .index, .ref .member]   -- 228
  | .trailer_filt => .alt [.ref .index, .ref .member]   -- 229
  | .partial_call =>   -- 231
      .seq [.lit (s!!"("), .ref .ws, .opt (.seq [.ref .args, .ref .ws]), .lit (s!!")")]
  | .filter => .seq [.ref .factor_filt, .opt (.ref .partial_call)]   -- 232
  | .qualifier => .rx reQualifier   -- 234
  | .op_power => .lit (s!!"**")   -- 241
  | .neg => .lit (s!!"-")   -- 242
  | .op_multiplic => .alt [.lit (s!!"*"), .lit (s!!"//"), .lit (s!!"/"), .lit (s!!"%")]   -- 243
  | .op_additive => .alt [.lit (s!!"+"), .lit (s!!"-")]   -- 244
  | .op_shift => .alt [.lit (s!!"<<"), .lit (s!!">>")]   -- 245
  | .op_empty => .alt [.lit (s!!"?"), .lit (s!!"!")]   -- 246
  | .not => .lit (s!!"not")   -- 248
  | .op_comp => .rx reComp   -- 249
  | .symbol => .seq [.alt [.ref .mark_def, .ref .mark_eval], .ref .name_id]   -- 253
  | .name_id => .seq [.not (.ref .name_reserved), .rx reName]   -- 254
  | .name_reserved => .rx (reReserved U)   -- 255
  | .name_xml => .rx (reXml U)   -- 259
  | .literal => .alt [.ref .number, .ref .string, .ref .boolean, .ref .none]   -- 264
  | .number_signed => .seq [.rx reSign, .ref .number]   -- 266
  | .number => .rx (reNumber U)   -- 267
  | .boolean => .alt [.lit (s!!"True"), .lit (s!!"False")]   -- 269
  | .none => .lit (s!!"None")   -- 270
  | .string => .alt [.ref .string_format, .ref .string_raw]   -- 272
  | .string_raw => .alt [.rx (reRaw '\''), .rx (reRaw '"')]   -- 273
  | .string_format => .alt [.ref .string_quot1, .ref .string_quot2]   -- 275
  | .string_quot1 =>   -- 276
      .seq [.lit (s!!"'"), .star (.alt [.ref .escape, .ref .embedding, .ref .text_quot1]),
        .lit (s!!"'")]
  | .string_quot2 =>   -- 277
      .seq [.lit (s!!"\""), .star (.alt [.ref .escape, .ref .embedding, .ref .text_quot2]),
        .lit (s!!"\"")]
  | .escape => .rx reEscape   -- 282
  | .verbatim => .rx (reLine M [])   -- 284
  | .text => .rx (reLine M ['$', '{', '}'])   -- 285
  | .text_quot1 => .rx (reLine M ['$', '{', '}', '\''])   -- 286
  | .text_quot2 => .rx (reLine M ['$', '{', '}', '"'])   -- 287
  | .indent_s => .lit [M.indentS]   -- 289
  | .dedent_s => .lit [M.dedentS]   -- 290
  | .indent_t => .lit [M.indentT]   -- 291
  | .dedent_t => .lit [M.dedentT]   -- 292
  | .margin_out => .seq [.ref .nl, .lit []]   -- 294
  | .margin => .seq [.ref .nl, .lit []]   -- 295
  | .nl => .rx reNl   -- 296
  | .comma => .seq [.ref .ws, .lit (s!!","), .ref .ws]   -- 298
  | .space => .rx reSpace   -- 299
  | .ws => .rx reWs   -- 300

end Verif
