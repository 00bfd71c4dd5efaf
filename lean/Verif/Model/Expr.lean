import Verif.Model.NodeOps

/-
Expressions: `src/hypertag/core/ast.py`, lines 1266-1768.

`Expr` is the tree after parsing, rewriting and `setup()`; the slots of names are filled by the analysis
(`Model/Analyse.lean`), `none` before.
-/

namespace Verif
open Py

/-- Qualifiers `?` and `!`, grammar.py:234. -/
inductive Qual where
  | opt
  | obl
  deriving DecidableEq, Repr

mutual
/-- Expression nodes.
* `root q e`: `expression_root` and subclasses, ast.py:1311-1338; `q` is the qualifier, if any
* `tagUse`: `xtag_use`, 1340; `varUse`: `xvar_use`, 1413
* `factor`: `xfactor` and subclasses (also `xfilter`), 1494-1520
* `chain neg h ops es`: `chain_expression`s `h ops[0] es[0] ops[1] es[1] ..`, 1556-1596, 1649; `neg` is
  the leading minus of `xarith_expr`
* `concat`: `xconcat_expr`, 1598; `bits op h es`: `h op es[0] op ..`, `xand_expr`, `xxor_expr`,
  `xor_expr`, 1622-1637; `pipeline`: 1638-1646
* `notTest n e`: `n` times `not`, 1653; `andTest`, `orTest`: 1661-1678
* `ifElse x t y` : `x if t else y`, 1680-1691
* `list`, `tuple`, `set`, `dict` (keys and values alternate): 1708-1730
* `format`: `xstring_format`, 1732; its parts are expressions and `static` texts (`text_quot*`, `escape`)
* literals: `strLit` (`xstring_raw`, `xattr_short_lit`), `number`, `boolean`, `noneLit`, 1739-1768
* `sliceNone`: an empty `xslice_value`, 1454-1458 (a non-empty one is its only child) -/
inductive Expr where
  | root (q : Option Qual) (e : Expr)
  | tagUse (symbol : Str) (slot : Option Slot)
  | varUse (name : Str) (slot : Option Slot)
  | factor (atom : Expr) (tail : List Tail) (q : Option Qual)
  | chain (neg : Bool) (head : Expr) (ops : List Str) (es : List Expr)
  | concat (es : List Expr)
  | bits (op : Str) (head : Expr) (es : List Expr)
  | pipeline (head : Expr) (filters : List Expr)
  | notTest (n : Nat) (e : Expr)
  | andTest (head : Expr) (es : List Expr)
  | orTest (head : Expr) (es : List Expr)
  | ifElse (x t : Expr) (y : Option Expr)
  | list (es : List Expr)
  | tuple (es : List Expr)
  | set (es : List Expr)
  | dict (es : List Expr)
  | format (es : List Expr)
  | static (s : Str)
  | strLit (s : Str)
  | number (text : Str)
  | boolean (b : Bool)
  | noneLit
  | sliceNone

/-- Tail operators, ast.py:1430-1489. In calls, `names` tells for each argument its keyword, if any. -/
inductive Tail where
  | call (names : List (Option Str)) (args : List Expr)
  | partialCall (names : List (Option Str)) (args : List Expr)
  | index (es : List Expr)
  | member (name : Str)
end

section
variable {P X W : Type} (E : Env P X W)

/-- `bool(v)`. -/
def truthOf : Val P → Comp P X W Bool
  | .py p => runPy E (E.ops.truth p)
  | .none => pure false
  | .bool b => pure b
  | .str s => pure (decide (s ≠ []))
  | .dom ns => pure (decide (ns ≠ []))     -- `DOM.__bool__`, dom.py:90
  | .node _ => pure true
  | .hyper _ => pure true
  | .embedded _ _ => pure true
  | .part _ _ _ => pure true

/-- `text_type(v)`. -/
def strOf : Val P → Comp P X W Str
  | .str s => pure s
  | v => runPy E (E.ops.str v)

/-- `STR(value, ..)`, ast.py:60-63. -/
def STR (v : Val P) : Comp P X W Str :=
  match v with
  | .none => Comp.raise .noneString
  | v => strOf E v

/-- Binary operators, ast.py:1525-1545, 994-1005. Concatenation of strings is fixed, everything else
is left open. `+=` is the in-place addition of ast.py:1194, which for strings is the same. -/
def binOp (op : Str) (a b : Val P) : Comp P X W (Val P) :=
  match op, a, b with
  | ['+'], .str s, .str t => pure (.str (s ++ t))
  | ['+', '='], .str s, .str t => pure (.str (s ++ t))
  | _, _, _ => runPy E (E.ops.bin op a b)

/-- Binding of the arguments of `EmbeddedHypertag.__call__(self, body_string = None, *attrs,
**kwattrs)`, ast.py:134. -/
def embeddedArgs (args : List (Val P)) (kw : List (Str × Val P)) :
    Option (Val P × List (Val P) × List (Str × Val P)) :=
  if (Dict.get? kw (s!!"self")).isSome then .none
  else
    match args with
    | [] => some ((Dict.get? kw (s!!"body_string")).getD .none, [], Dict.erase kw (s!!"body_string"))
    | b :: as => if (Dict.get? kw (s!!"body_string")).isSome then .none else some (b, as, kw)

/-- `f(*args, **kw)`. -/
def callVal : Val P → List (Val P) → List (Str × Val P) → Comp P X W (Val P)
  | .embedded h st, args, kw =>
    match embeddedArgs args kw with
    | some (b, as, kw') => E.call { tag := h, state := st, body := b, attrs := as, kwattrs := kw' }
    | .none => Comp.raise .typeErr
  -- `newfunc(*newargs)`, ast.py:71-72
  | .part f as k, args, kw =>
    match kw with
    | [] => callVal f (args ++ as) k
    | _ => Comp.raise .typeErr
  | f, args, kw => runPy E (E.ops.call f args kw)

/-- What follows the evaluation of the inner expression, ast.py:1300-1305. -/
def qualCheck (q : Option Qual) (v : Val P) : Comp P X W (Val P) := do
  let b ← truthOf E v
  if b then return v
  match q with
  | some .opt => return .str []
  | some .obl => do
    let _ ← runPy E (E.ops.repr v)
    Comp.raise .falseValue
  | .none => return v

/-- The `try` statement of `evaluate_with_qualifier`, ast.py:1294-1298. -/
def qualStep (q : Option Qual) : Res X (Val P) × Machine P W → Res X (Val P) × Machine P W
  | (.ok v, M) => qualCheck E q v M
  | (.raise e, M) =>
    if e.ordinary = true ∧ q = some .opt then (.ok (.str []), M) else (.raise e, M)
  | (.timeout, M) => (.timeout, M)

/-- `evaluate_with_qualifier`, ast.py:1290-1305; `c` is `_eval_inner_qualified`. -/
def qualified (q : Option Qual) (c : Comp P X W (Val P)) : Comp P X W (Val P) :=
  fun M => qualStep E q (c M)

/-- `[value for name, value in items if name is None]`, ast.py:1443. -/
def positional : List (Option Str) → List (Val P) → List (Val P)
  | .none :: ns, v :: vs => v :: positional ns vs
  | some _ :: ns, _ :: vs => positional ns vs
  | _, _ => []

/-- The pairs of `{name: value for name, value in items if name is not None}`, ast.py:1444. -/
def keywords : List (Option Str) → List (Val P) → List (Str × Val P)
  | .none :: ns, _ :: vs => keywords ns vs
  | some n :: ns, v :: vs => (n, v) :: keywords ns vs
  | _, _ => []

/-- The pairs collected in `xdict.evaluate`, ast.py:1725-1730. -/
def pairUp : List (Val P) → List (Val P × Val P)
  | k :: v :: rest => (k, v) :: pairUp rest
  | _ => []

/-- `slot.get(state)` for reading a name; a name that was not analysed has no slot. -/
def readName (σ : StateId) (slot : Option Slot) : Comp P X W (Val P) :=
  match slot with
  | .none => Comp.raise .unresolved
  | some sl => do
    match ← getSlot σ sl with
    | some v => return v
    | .none => Comp.raise .unbound

/-- The result of `xtag_use.evaluate`, ast.py:1356-1359. -/
def wrapTag (σ : StateId) : Val P → Val P
  | .hyper h => .embedded h σ
  | v => v

/-- `-head` with the exception for `None`, ast.py:1590-1591. -/
def negate (v : Val P) : Comp P X W (Val P) :=
  match v with
  | .none => return .none
  | v => runPy E (E.ops.neg v)

mutual
/-- `expr.evaluate(state)`. -/
def eval (σ : StateId) : Expr → Comp P X W (Val P)
  | .root q e => qualified E q (eval σ e)                              -- ast.py:1326-1331
  | .tagUse _ slot => do                                               -- ast.py:1353-1362
    let v ← readName σ slot
    return wrapTag σ v
  | .varUse _ slot => readName σ slot                                  -- ast.py:1400-1407
  | .factor atom tail q => qualified E q (eval σ atom >>= applyTails σ tail)   -- ast.py:1507-1515
  | .chain neg head ops es => do                                       -- ast.py:1559-1596
    let h ← eval σ head
    let h ← if neg then negate E h else pure h
    evalChain σ ops es h
  | .concat es => do                                                   -- ast.py:1607-1608
    let s ← evalStrs σ es
    return .str s
  | .bits op head es => do                                             -- ast.py:1615-1620
    let h ← eval σ head
    evalBits σ op es h
  | .pipeline head fs => do                                            -- ast.py:1615-1620, 1644-1646
    let h ← eval σ head
    evalPipe σ fs h
  | .notTest n e => do                                                 -- ast.py:1655-1659
    let v ← eval σ e
    if n % 2 = 1 then do
      let b ← truthOf E v
      return .bool (!b)
    else return v
  | .andTest head es => do                                             -- ast.py:1664-1669
    let h ← eval σ head
    evalAnd σ es h
  | .orTest head es => do                                              -- ast.py:1673-1678
    let h ← eval σ head
    evalOr σ es h
  | .ifElse x t y => do                                                -- ast.py:1685-1691
    let tv ← eval σ t
    let b ← truthOf E tv
    if b then eval σ x else
      match y with
      | some y => eval σ y
      | .none => return .str []
  | .list es => do                                                     -- ast.py:1709
    let vs ← evalList σ es
    runPy E (E.ops.mkList vs)
  | .tuple es => do                                                    -- ast.py:1713
    let vs ← evalList σ es
    runPy E (E.ops.mkTuple vs)
  | .set es => do                                                      -- ast.py:1720
    let vs ← evalList σ es
    runPy E (E.ops.mkSet vs)
  | .dict es => do                                                     -- ast.py:1724-1730
    let vs ← evalList σ es
    runPy E (E.ops.mkDict (pairUp vs))
  | .format es => do                                                   -- ast.py:1733-1734
    let s ← evalStrs σ es
    return .str s
  | .static s => return .str s
  | .strLit s => return .str s                                         -- ast.py:1745
  | .number t => return E.ops.number t
  | .boolean b => return .bool b
  | .noneLit => return .none
  | .sliceNone => return .none
/-- `[e.evaluate(state) for e in es]`. -/
def evalList (σ : StateId) : List Expr → Comp P X W (List (Val P))
  | [] => return []
  | e :: es => do
    let v ← eval σ e
    let vs ← evalList σ es
    return v :: vs
/-- The loop of `chain_expression.evaluate`, ast.py:1565-1570. -/
def evalChain (σ : StateId) : List Str → List Expr → Val P → Comp P X W (Val P)
  | op :: ops, e :: es, res => do
    let v ← eval σ e
    let r ← binOp E op res v
    evalChain σ ops es r
  | _, _, res => return res
/-- `''.join(STR(e.evaluate(state), ..) for e in es)`, ast.py:1608. Also `_render_all(nodes, state)`,
ast.py:348-350, with `expression_root.render` (1322-1324) and, for `static` nodes, `static.render`
(366), which is the same as `STR` of its value. -/
def evalStrs (σ : StateId) : List Expr → Comp P X W Str
  | [] => return []
  | e :: es => do
    let v ← eval σ e
    let s ← STR E v
    let ss ← evalStrs σ es
    return s ++ ss
/-- The loop of `simple_chain_expression.evaluate`, ast.py:1617-1620. -/
def evalBits (σ : StateId) (op : Str) : List Expr → Val P → Comp P X W (Val P)
  | [], res => return res
  | e :: es, res => do
    let v ← eval σ e
    let r ← binOp E op res v
    evalBits σ op es r
/-- The same loop for `xpipeline`: `oper(x, fun) = fun(x)`, ast.py:1645-1646. -/
def evalPipe (σ : StateId) : List Expr → Val P → Comp P X W (Val P)
  | [], res => return res
  | e :: es, res => do
    let f ← eval σ e
    let r ← callVal E f [res] []
    evalPipe σ es r
/-- The loop of `xand_test.evaluate`, ast.py:1666-1669. The truth of `res` is tested twice. -/
def evalAnd (σ : StateId) : List Expr → Val P → Comp P X W (Val P)
  | [], res => return res
  | e :: es, res => do
    let b ← truthOf E res
    if b then do
      let b ← truthOf E res
      if b then do
        let v ← eval σ e
        evalAnd σ es v
      else evalAnd σ es res
    else return res
/-- The loop of `xor_test.evaluate`, ast.py:1675-1678. -/
def evalOr (σ : StateId) : List Expr → Val P → Comp P X W (Val P)
  | [], res => return res
  | e :: es, res => do
    let b ← truthOf E res
    if b then return res
    else do
      let b ← truthOf E res
      if b then evalOr σ es res
      else do
        let v ← eval σ e
        evalOr σ es v
/-- The loop over tail operators, ast.py:1512-1515. -/
def applyTails (σ : StateId) : List Tail → Val P → Comp P X W (Val P)
  | [], v => return v
  | t :: ts, v => do
    let r ← applyTail σ t v
    applyTails σ ts r
/-- `op.apply(val, state)`. -/
def applyTail (σ : StateId) : Tail → Val P → Comp P X W (Val P)
  | .call names args, f => do                                          -- ast.py:1437-1439
    let vs ← evalList σ args
    callVal E f (positional names vs) (Dict.update [] (keywords names vs))
  | .partialCall names args, f =>                                      -- ast.py:1449-1452
    if args.isEmpty then return f
    else do
      let vs ← evalList σ args
      return .part f (positional names vs) (Dict.update [] (keywords names vs))
  | .index es, obj => do                                               -- ast.py:1472-1480
    let vs ← evalList σ es
    match vs with
    | [i] => runPy E (E.ops.getitem obj i)
    | vs => runPy E (E.ops.slice obj vs)
  | .member name, obj => runPy E (E.ops.getattr obj name)              -- ast.py:1486-1489
end

end
end Verif
