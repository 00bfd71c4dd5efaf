import Verif.Model.PyStr

/-!
Independent specification of the target language: entities, attribute values, and a tokenizer of
(X)HTML documents written as a character-level state machine in the style of the HTML standard.
Nothing here refers to the model of the renderer.
-/

namespace Verif.Spec
open Verif.Py

/-- Text that contains no active markup: no angle brackets, and every ampersand starts one of the
three entities `&amp;`, `&lt;`, `&gt;`. -/
def SafeText (s : Str) : Prop :=
  '<' ∉ s ∧ '>' ∉ s ∧
  ∀ pre post, s = pre ++ '&' :: post →
    (s!!"amp;") <+: post ∨ (s!!"lt;") <+: post ∨ (s!!"gt;") <+: post

/-- Decode the entities `&amp;`, `&lt;`, `&gt;`, left to right. -/
def decodeText : Str → Str
  | '&' :: 'a' :: 'm' :: 'p' :: ';' :: r => '&' :: decodeText r
  | '&' :: 'l' :: 't' :: ';' :: r => '<' :: decodeText r
  | '&' :: 'g' :: 't' :: ';' :: r => '>' :: decodeText r
  | c :: r => c :: decodeText r
  | [] => []

/-- Decode the entities that may occur in an attribute value. -/
def decodeAttr : Str → Str
  | '&' :: 'a' :: 'm' :: 'p' :: ';' :: r => '&' :: decodeAttr r
  | '&' :: 'l' :: 't' :: ';' :: r => '<' :: decodeAttr r
  | '&' :: 'g' :: 't' :: ';' :: r => '>' :: decodeAttr r
  | '&' :: 'q' :: 'u' :: 'o' :: 't' :: ';' :: r => '"' :: decodeAttr r
  | '&' :: '#' :: '1' :: '0' :: ';' :: r => '\n' :: decodeAttr r
  | '&' :: '#' :: '1' :: '3' :: ';' :: r => '\r' :: decodeAttr r
  | '&' :: '#' :: '9' :: ';' :: r => '\t' :: decodeAttr r
  | c :: r => c :: decodeAttr r
  | [] => []

/-- Text allowed between the quotes `q` of an attribute value. -/
def SafeAttrInner (q : Char) (s : Str) : Prop :=
  q ∉ s ∧ '<' ∉ s ∧ '>' ∉ s ∧ '\n' ∉ s ∧ '\t' ∉ s ∧ '\r' ∉ s ∧
  ∀ pre post, s = pre ++ '&' :: post →
    (s!!"amp;") <+: post ∨ (s!!"lt;") <+: post ∨ (s!!"gt;") <+: post ∨ (s!!"quot;") <+: post ∨
    (s!!"#10;") <+: post ∨ (s!!"#13;") <+: post ∨ (s!!"#9;") <+: post

/-- Characters that may occur in tag and attribute names: no whitespace, no markup characters. -/
def isNameChar (c : Char) : Bool :=
  !isSpace c && c != '&' && c != '"' && c != '\'' && c != '<' && c != '>' && c != '/' && c != '='

/-- A non-empty name made of name characters. -/
def ValidName (n : Str) : Prop := n ≠ [] ∧ ∀ c ∈ n, isNameChar c = true

/-- Attributes of a start tag: `none` for a bare attribute (no value). -/
abbrev AttrList := List (Str × Option Str)

/-- Markup events of a document. Text is reported as its individual non-whitespace characters,
after decoding of entities. `bad` reports malformed input. -/
inductive Event where
  | start (name : Str) (attrs : AttrList)
  | close (name : Str)
  | void (name : Str) (attrs : AttrList)
  | chr (c : Char)
  | bad (s : Str)
  deriving DecidableEq, Repr

/-- States of the tokenizer. -/
inductive LexSt where
  | text
  | entity (acc : Str)
  | tagOpen
  | closeTag (acc : Str)
  | tagName (acc : Str)
  | beforeAttr (name : Str) (attrs : AttrList)
  | attrName (name : Str) (attrs : AttrList) (acc : Str)
  | beforeValue (name : Str) (attrs : AttrList) (attr : Str)
  | value (name : Str) (attrs : AttrList) (attr : Str) (quote : Char) (acc : Str)
  | selfClose (name : Str) (attrs : AttrList)
  | err
  deriving DecidableEq, Repr

/-- The character denoted by an entity name in text. -/
def entityChar (acc : Str) : Event :=
  if acc = (s!!"amp") then .chr '&'
  else if acc = (s!!"lt") then .chr '<'
  else if acc = (s!!"gt") then .chr '>'
  else .bad acc

/-- One step of the tokenizer. -/
def lexStep : LexSt → Char → LexSt × List Event
  | .text, c =>
    if c = '<' then (.tagOpen, [])
    else if c = '&' then (.entity [], [])
    else if isSpace c then (.text, [])
    else (.text, [.chr c])
  | .entity acc, c =>
    if c = ';' then (.text, [entityChar acc]) else (.entity (acc ++ [c]), [])
  | .tagOpen, c =>
    if c = '/' then (.closeTag [], [])
    else if isNameChar c then (.tagName [c], [])
    else (.err, [.bad [c]])
  | .closeTag acc, c =>
    if c = '>' then (.text, [.close acc])
    else if isNameChar c then (.closeTag (acc ++ [c]), [])
    else (.err, [.bad [c]])
  | .tagName acc, c =>
    if c = '>' then (.text, [.start acc []])
    else if c = ' ' then (.beforeAttr acc [], [])
    else if isNameChar c then (.tagName (acc ++ [c]), [])
    else (.err, [.bad [c]])
  | .beforeAttr n as, c =>
    if c = '>' then (.text, [.start n as])
    else if c = '/' then (.selfClose n as, [])
    else if c = ' ' then (.beforeAttr n as, [])
    else if isNameChar c then (.attrName n as [c], [])
    else (.err, [.bad [c]])
  | .attrName n as acc, c =>
    if c = '>' then (.text, [.start n (as ++ [(acc, none)])])
    else if c = ' ' then (.beforeAttr n (as ++ [(acc, none)]), [])
    else if c = '=' then (.beforeValue n as acc, [])
    else if isNameChar c then (.attrName n as (acc ++ [c]), [])
    else (.err, [.bad [c]])
  | .beforeValue n as a, c =>
    if c = '"' ∨ c = '\'' then (.value n as a c [], []) else (.err, [.bad [c]])
  | .value n as a q acc, c =>
    if c = q then (.beforeAttr n (as ++ [(a, some (decodeAttr acc))]), [])
    else (.value n as a q (acc ++ [c]), [])
  | .selfClose n as, c =>
    if c = '>' then (.text, [.void n as]) else (.err, [.bad [c]])
  | .err, _ => (.err, [])

/-- State after reading a string. -/
def lexState (st : LexSt) (s : Str) : LexSt := s.foldl (fun st c => (lexStep st c).1) st

/-- Events emitted while reading a string. -/
def lexEvents : LexSt → Str → List Event
  | _, [] => []
  | st, c :: cs => (lexStep st c).2 ++ lexEvents (lexStep st c).1 cs

/-- The whole document: its events, or `none` if it ends inside a tag or entity. -/
def tokenize (s : Str) : Option (List Event) :=
  if lexState .text s = .text then some (lexEvents .text s) else none

end Verif.Spec
