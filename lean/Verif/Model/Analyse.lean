import Verif.Model.Script

/-
Name analysis: `analyse(ctx)` of all nodes, `src/hypertag/core/ast.py` 336-344, 392-400, 439-445,
539-544, 588-609, 689-768, 780-804, 944-950, 1022-1024, 1043-1045, 1161-1166, 1220-1223, 1348-1351,
1384-1398; `Context`, `Slot`, `ValueSlot` in `structs.py` 189-220, 395-460; `HypertagAST.make_context`,
`analyse` ast.py 2012-2033.

The nodes of the Python tree are updated in place; here analysis returns the updated tree. An exception
aborts the analysis of the whole document, so that the context is of no interest then.

The symbol table of the context is the list of its bindings, the latest one last, which `MultiDict`
implements by C32, C33.
-/

namespace Verif
open Py

/-- A `Slot` object, structs.py:409-437: its identity and depth. -/
structure SlotInfo where
  id : Slot
  depth : Nat
  deriving DecidableEq, Repr

/-- Exceptions of the analysis. `I`: exceptions raised when a module is imported. -/
inductive AErr (I : Type) where
  | undefinedVar (symbol : Str)
  | undefinedTag (symbol : Str)
  | syntaxErr
  | importErr (symbol : Str)
  | loader (x : I)
  | assertion
  | index
  deriving DecidableEq, Repr

/-- `Context`, structs.py:189-213; `next` is the number of slots created so far. -/
structure Ctx where
  binds : List (Str × SlotInfo) := []
  regular : Nat := 0
  control : Nat := 0
  hypertag : Nat := 0
  prolog : Bool := true
  next : Slot := 0

/-- The latest binding of a symbol. -/
def lookupBind : List (Str × SlotInfo) → Str → Option SlotInfo
  | [], _ => none
  | (k, v) :: bs, sym =>
    match lookupBind bs sym with
    | some w => some w
    | none => if k = sym then some v else none

/-- `ctx.get(symbol)`, structs.py:116-119. -/
def Ctx.get (c : Ctx) (sym : Str) : Option SlotInfo := lookupBind c.binds sym

/-- `ctx.push(symbol, slot)`, structs.py:127-130. -/
def Ctx.push (c : Ctx) (sym : Str) (s : SlotInfo) : Ctx := { c with binds := c.binds ++ [(sym, s)] }

/-- `ctx.pushnew(symbols)`, structs.py:145-148. -/
def Ctx.pushnew (c : Ctx) : List (Str × SlotInfo) → Ctx
  | [] => c
  | (k, v) :: ps => if (c.get k).isSome then pushnew c ps else pushnew (c.push k v) ps

/-- `assert len(symbol) >= 2 and symbol[0] in '$%'`, structs.py:428. -/
def validSymbol : Str → Bool
  | c :: _ :: _ => c = '$' || c = '%'
  | _ => false

section
variable {P I : Type}

/-- `Slot(symbol, ctx)`, structs.py:427-441. -/
def newSlot (c : Ctx) (sym : Str) : Except (AErr I) (SlotInfo × Ctx) :=
  if validSymbol sym then
    let s : SlotInfo := { id := c.next, depth := c.regular }
    .ok (s, { c.push sym s with next := c.next + 1 })
  else .error .assertion

/-- `slot = Slot(symbol, ctx); ctx.push(symbol, slot)`, ast.py:1222-1223, 1397-1398: pushed twice. -/
def declare (c : Ctx) (sym : Str) : Except (AErr I) (SlotInfo × Ctx) := do
  let (s, c) ← newSlot c sym
  return (s, c.push sym s)

/-! ### Expressions -/

/-- The slot of a symbol, or an error. -/
def resolve (b : List (Str × SlotInfo)) (sym : Str) (e : AErr I) : Except (AErr I) (Option Slot) :=
  match lookupBind b sym with
  | some s => .ok (some s.id)
  | none => .error e

mutual
/-- `expr.analyse(ctx)`: children in order (ast.py:336-344), names: ast.py:1348-1351, 1384-1392. The
context is only read. -/
def analyseExpr (b : List (Str × SlotInfo)) : Expr → Except (AErr I) Expr
  | .root q e => do return .root q (← analyseExpr b e)
  | .tagUse sym _ => do return .tagUse sym (← resolve b sym (.undefinedTag sym))
  | .varUse name _ => do return .varUse name (← resolve b ('$' :: name) (.undefinedVar ('$' :: name)))
  | .factor atom tail q => do
    let a ← analyseExpr b atom
    let t ← analyseTails b tail
    return .factor a t q
  | .chain neg head ops es => do
    let h ← analyseExpr b head
    let es ← analyseExprs b es
    return .chain neg h ops es
  | .concat es => do return .concat (← analyseExprs b es)
  | .bits op head es => do
    let h ← analyseExpr b head
    let es ← analyseExprs b es
    return .bits op h es
  | .pipeline head fs => do
    let h ← analyseExpr b head
    let fs ← analyseExprs b fs
    return .pipeline h fs
  | .notTest n e => do return .notTest n (← analyseExpr b e)
  | .andTest head es => do
    let h ← analyseExpr b head
    let es ← analyseExprs b es
    return .andTest h es
  | .orTest head es => do
    let h ← analyseExpr b head
    let es ← analyseExprs b es
    return .orTest h es
  | .ifElse x t y => do
    let x ← analyseExpr b x
    let t ← analyseExpr b t
    let y ← analyseExprOpt b y
    return .ifElse x t y
  | .list es => do return .list (← analyseExprs b es)
  | .tuple es => do return .tuple (← analyseExprs b es)
  | .set es => do return .set (← analyseExprs b es)
  | .dict es => do return .dict (← analyseExprs b es)
  | .format es => do return .format (← analyseExprs b es)
  | .static s => return .static s
  | .strLit s => return .strLit s
  | .number t => return .number t
  | .boolean v => return .boolean v
  | .noneLit => return .noneLit
  | .sliceNone => return .sliceNone
def analyseExprs (b : List (Str × SlotInfo)) : List Expr → Except (AErr I) (List Expr)
  | [] => return []
  | e :: es => do
    let e ← analyseExpr b e
    let es ← analyseExprs b es
    return e :: es
def analyseExprOpt (b : List (Str × SlotInfo)) : Option Expr → Except (AErr I) (Option Expr)
  | none => return none
  | some e => do return some (← analyseExpr b e)
def analyseTails (b : List (Str × SlotInfo)) : List Tail → Except (AErr I) (List Tail)
  | [] => return []
  | t :: ts => do
    let t ← analyseTail b t
    let ts ← analyseTails b ts
    return t :: ts
def analyseTail (b : List (Str × SlotInfo)) : Tail → Except (AErr I) Tail
  | .call names args => do return .call names (← analyseExprs b args)
  | .partialCall names args => do return .partialCall names (← analyseExprs b args)
  | .index es => do return .index (← analyseExprs b es)
  | .member n => return .member n
end

/-! ### Lines, targets, tags -/

/-- The expressions of a line. -/
def analyseLine (b : List (Str × SlotInfo)) : Line → Except (AErr I) Line
  | .verbat s => return .verbat s
  | .normal ps => do return .normal (← analyseExprs b ps)
  | .markup ps => do return .markup (← analyseExprs b ps)

def analyseItem (b : List (Str × SlotInfo)) : TextItem → Except (AErr I) TextItem
  | .line l => do return .line (← analyseLine b l)
  | t => return t

def analyseItems (b : List (Str × SlotInfo)) : List TextItem → Except (AErr I) (List TextItem)
  | [] => return []
  | t :: ts => do
    let t ← analyseItem b t
    let ts ← analyseItems b ts
    return t :: ts

/-- The slot for writing a variable: the present one if it is on the same level, otherwise a new one,
ast.py:1394-1398. -/
def writeSlot (c : Ctx) (sym : Str) : Except (AErr I) (SlotInfo × Ctx) :=
  match c.get sym with
  | some s => if s.depth = c.regular then .ok (s, c) else declare c sym
  | none => declare c sym

/-- The slot for reading, of an in-place assignment, ast.py:1390-1392. -/
def readSlot (c : Ctx) (read : Bool) (sym : Str) : Except (AErr I) (Option Slot) :=
  if read then resolve c.binds sym (.undefinedVar sym) else .ok none

mutual
/-- `targets.analyse(ctx)`, ast.py:1043-1045, 1384-1398. -/
def analyseTarget : Target → Ctx → Except (AErr I) (Target × Ctx)
  | .var name read _ _, c => do
    let r ← readSlot c read ('$' :: name)
    let (w, c) ← writeSlot c ('$' :: name)
    return (.var name read r (some w.id), c)
  | .many ts, c => do
    let (ts, c) ← analyseTargets ts c
    return (.many ts, c)
def analyseTargets : List Target → Ctx → Except (AErr I) (List Target × Ctx)
  | [], c => return ([], c)
  | t :: ts, c => do
    let (t, c) ← analyseTarget t c
    let (ts, c) ← analyseTargets ts c
    return (t :: ts, c)
end

/-- Values of named attributes. -/
def analyseNamed (b : List (Str × SlotInfo)) :
    List (Str × Expr) → Except (AErr I) (List (Str × Expr))
  | [] => return []
  | (n, e) :: rest => do
    let e ← analyseExpr b e
    let rest ← analyseNamed b rest
    return (n, e) :: rest

/-- `tag.analyse(ctx)`, ast.py:1161-1166. Attributes are in the order of the script, as no unnamed one
may follow a named one (1150-1153). -/
def analyseTag (b : List (Str × SlotInfo)) : TagExp → Except (AErr I) TagExp
  | .tag name _ unnamed named => do
    let u ← analyseExprs b unnamed
    let n ← analyseNamed b named
    let s ← resolve b ('%' :: name) (.undefinedTag ('%' :: name))
    return .tag name s u n
  | .null => return .null

def analyseTags (b : List (Str × SlotInfo)) : List TagExp → Except (AErr I) (List TagExp)
  | [] => return []
  | t :: ts => do
    let t ← analyseTag b t
    let ts ← analyseTags b ts
    return t :: ts

/-! ### Attributes of hypertag definitions -/

/-- Default values, ast.py:595-596. -/
def analyseDefaults (b : List (Str × SlotInfo)) : List AttrDef → Except (AErr I) (List AttrDef)
  | [] => return []
  | a :: as => do
    let e ← analyseExprOpt b a.default
    let as ← analyseDefaults b as
    return { a with default := e } :: as

/-- `attr.declare_var(ctx)`, ast.py:598-599, 1220-1223. -/
def declareAttrs : List AttrDef → Ctx → Except (AErr I) (List AttrDef × Ctx)
  | [], c => return ([], c)
  | a :: as, c => do
    let (s, c) ← declare c ('$' :: a.name)
    let (as, c) ← declareAttrs as c
    return ({ a with slot := some s.id } :: as, c)

/-! ### Imports -/

/-- What analysis depends on: modules by import path (symbols and state; by C29, C64 repeated imports
give the same module), and the symbols of the context (ast.py:758-763). -/
structure Source (P I : Type) where
  modules : Option Str → Except I (Dict Str (Val P) × StateId)
  context : Dict Str (Val P)

/-- Hypertags are wrapped when imported, ast.py:713, 735-736. -/
def importValue (sym : Str) (st : StateId) (v : Val P) : Val P :=
  match v with
  | .hyper h => if sym.head? = some '%' then .hyper (.imported h st) else .hyper h
  | v => v

/-- `rename = (symbol[0] + self.children[1].value) if .. else symbol`, ast.py:729, 760. -/
def renamed (sym : Str) : Option Str → Str
  | some n => sym.take 1 ++ n
  | none => sym

/-- `self._import(self.path)`, ast.py:698-702. -/
def loadModule (src : Source P I) (path : Option Str) :
    Except (AErr I) (Dict Str (Val P) × StateId) :=
  match src.modules path with
  | .ok m => .ok m
  | .error x => .error (.loader x)

/-- `{symbol: ValueSlot(symbol, value, ctx) for ..}`, ast.py:393, 716. -/
def valueSlots : List (Str × Val P) → Ctx → Except (AErr I) (List (Str × Slot × Val P) × Ctx)
  | [], c => return ([], c)
  | (sym, v) :: rest, c => do
    let (s, c) ← newSlot c sym
    let (l, c) ← valueSlots rest c
    return ((sym, s.id, v) :: l, c)

/-- The public symbols, with hypertags wrapped, ast.py:713-714. -/
def publicSymbols (st : StateId) : List (Str × Val P) → Except (AErr I) (List (Str × Val P))
  | [] => return []
  | (sym, v) :: rest =>
    match (sym[1]? : Option Char) with
    | none => .error .index
    | some c => do
      let l ← publicSymbols st rest
      return if c ≠ '_' then (sym, importValue sym st v) :: l else l

/-- `item.analyse(ctx)`, ast.py:708-717, 726-739, 757-765. -/
def analyseImport (src : Source P I) (path : Option Str) :
    ImportItem P → Ctx → Except (AErr I) (ImportItem P × Ctx)
  | .wild _, c => do
    let (symbols, st) ← loadModule src path
    let pub ← publicSymbols st symbols
    let (l, c) ← valueSlots pub c
    return (.wild (some (l.map Prod.snd)), c)
  | .name sym ren _, c => do
    if path = none then .error .assertion
    else do
      let (symbols, st) ← loadModule src path
      match Dict.get? symbols sym with
      | none => .error (.importErr sym)
      | some v => do
        let (s, c) ← newSlot c (renamed sym ren)
        return (.name sym ren (some (s.id, importValue sym st v)), c)
  | .cntx sym ren _, c =>
    match Dict.get? src.context sym with
    | none => .error (.importErr sym)
    | some v => do
      let (s, c) ← newSlot c (renamed sym ren)
      return (.cntx sym ren (some (s.id, v)), c)

def analyseImports (src : Source P I) (path : Option Str) :
    List (ImportItem P) → Ctx → Except (AErr I) (List (ImportItem P) × Ctx)
  | [], c => return ([], c)
  | i :: is, c => do
    let (i, c) ← analyseImport src path i c
    let (is, c) ← analyseImports src path is c
    return (i :: is, c)

/-! ### Blocks -/

/-- `ctx.in_prolog` after the check of `xblock.analyse`, ast.py:442-443. -/
def leaveProlog (block : Stmt P) (c : Ctx) : Ctx :=
  match block with
  | .comment => c
  | .imports true _ _ => c
  | _ => { c with prolog := false }

/-- The end of a local namespace: `ctx.reset(position)`, and the counters, as they were in `c0`;
ast.py:543-544, 603-605. -/
def Ctx.leave (c0 c : Ctx) : Ctx :=
  { c with binds := c.binds.take c0.binds.length, regular := c0.regular, hypertag := c0.hypertag }

/-- The end of a branch of a control block, ast.py:802-804. -/
def Ctx.mergeBranch (c0 c : Ctx) : Ctx :=
  { c with binds := c.binds.take c0.binds.length }.pushnew
    (Dict.update [] (c.binds.drop c0.binds.length))

mutual
/-- `node.analyse(ctx)`. -/
def analyse (src : Source P I) : Stmt P → Ctx → Except (AErr I) (Stmt P × Ctx)
  | .static s, c => return (.static s, c)
  | .indent ch, c => return (.indent ch, c)
  | .dedent ch, c => return (.dedent ch, c)
  | .line l, c => do return (.line (← analyseLine c.binds l), c)
  | .xblock m mo b, c => do                                            -- ast.py:439-445
    let (b, c) ← analyse src b (leaveProlog b c)
    return (.xblock m mo b, c)
  | .text lead items, c => do return (.text lead (← analyseItems c.binds items), c)
  | .comment, c => return (.comment, c)
  | .embed e, c => do return (.embed (← analyseExpr c.binds e), c)
  | .struct tags body, c => do                                         -- ast.py:539-544
    let tags ← analyseTags c.binds tags
    let (body, c') ← analyse src body { c with regular := c.regular + 1 }
    return (.struct tags body, c.leave c')
  | .defn id name _ bodyAttr attrs body, c => do                       -- ast.py:588-609
    if 1 ≤ c.control then .error .syntaxErr
    else do
      let c1 := { c with regular := c.regular + 1, hypertag := c.hypertag + 1 }
      let ba ← analyseDefaults c1.binds bodyAttr.toList
      let as ← analyseDefaults c1.binds attrs
      let (ba, c2) ← declareAttrs ba c1
      let (as, c2) ← declareAttrs as c2
      let (body, c3) ← analyse src body c2
      let (s, c4) ← newSlot (c.leave c3) ('%' :: name)
      return (.defn id name (some s.id) ba.head? as body, c4)
  | .imports true path items, c => do                                  -- ast.py:749-751
    if c.prolog then do
      let (items, c) ← analyseImports src path items c
      return (.imports true path items, c)
    else .error .syntaxErr
  | .imports false path items, c => do                                 -- ast.py:689-691
    if 1 ≤ c.control then .error .syntaxErr
    else do
      let (items, c) ← analyseImports src path items c
      return (.imports false path items, c)
  | .tryBlock bs, c => do                                              -- ast.py:780-802
    let (bs, c') ← analyseBranches src bs { c with control := c.control + 1 }
    return (.tryBlock bs, { c' with control := c.control })
  | .ifBlock cs els, c => do
    let (cs, c1) ← analyseClauses src cs { c with control := c.control + 1 }
    let (els, c2) ← analyseElse src els c1
    return (.ifBlock cs els, { c2 with control := c.control })
  | .elseClause b, c => do
    let (b, c) ← analyseOpt src b c
    return (.elseClause b, c)
  | .whileBlock t b els, c => do
    -- the children are the clause (test, body) and the optional `else` clause
    let c0 := { c with control := c.control + 1 }
    let t ← analyseExpr c0.binds t
    let (b, c1) ← analyseOpt src b c0
    let (els, c2) ← analyseElse src els (c0.mergeBranch c1)
    return (.whileBlock t b els, { c2 with control := c.control })
  | .forBlock targets e rest, c => do                                  -- ast.py:947-950
    let c0 := { c with control := c.control + 1 }
    let e ← analyseExpr c0.binds e
    let (targets, c1) ← analyseTarget targets c0
    let (rest, c2) ← analyseFirst src rest c1
    return (.forBlock targets e rest, { c2 with control := c.control })
  | .exprBlock e, c => do return (.exprBlock (← analyseExpr c.binds e), c)
  | .assign targets op e, c => do                                      -- ast.py:1022-1024
    let e ← analyseExpr c.binds e
    let (targets, c) ← analyseTarget targets c
    return (.assign targets op e, c)
  | .body ss, c => do
    let (ss, c) ← analyseAll src ss c
    return (.body ss, c)
  | .pass, c => return (.pass, c)
/-- `for c in self.children: c.analyse(ctx)`, ast.py:343-344. -/
def analyseAll (src : Source P I) : List (Stmt P) → Ctx → Except (AErr I) (List (Stmt P) × Ctx)
  | [], c => return ([], c)
  | s :: ss, c => do
    let (s, c) ← analyse src s c
    let (ss, c) ← analyseAll src ss c
    return (s :: ss, c)
/-- The loop of `_analyse_branches`, ast.py:797-802. -/
def analyseBranches (src : Source P I) : List (Stmt P) → Ctx → Except (AErr I) (List (Stmt P) × Ctx)
  | [], c => return ([], c)
  | s :: ss, c => do
    let (s, c') ← analyse src s c
    let (ss, c) ← analyseBranches src ss (c.mergeBranch c')
    return (s :: ss, c)
/-- The same for the clauses of an `if` block: test and body. -/
def analyseClauses (src : Source P I) : List (Expr × Option (Stmt P)) → Ctx →
    Except (AErr I) (List (Expr × Option (Stmt P)) × Ctx)
  | [], c => return ([], c)
  | cl :: cs, c => do
    let (cl, c') ← analyseClause src cl c
    let (cs, c) ← analyseClauses src cs (c.mergeBranch c')
    return (cl :: cs, c)
def analyseClause (src : Source P I) : Expr × Option (Stmt P) → Ctx →
    Except (AErr I) ((Expr × Option (Stmt P)) × Ctx)
  | (t, b), c => do
    let t ← analyseExpr c.binds t
    let (b, c) ← analyseOpt src b c
    return ((t, b), c)
/-- The same for an optional `else` clause. -/
def analyseElse (src : Source P I) : Option (Stmt P) → Ctx → Except (AErr I) (Option (Stmt P) × Ctx)
  | none, c => return (none, c)
  | some s, c => do
    let (s, c') ← analyse src s c
    return (some s, c.mergeBranch c')
/-- An optional child. -/
def analyseOpt (src : Source P I) : Option (Stmt P) → Ctx → Except (AErr I) (Option (Stmt P) × Ctx)
  | none, c => return (none, c)
  | some s, c => do
    let (s, c) ← analyse src s c
    return (some s, c)
/-- `if self.body: self.body.analyse(ctx)`, ast.py:950: the other children of a `for` block are not
analysed. -/
def analyseFirst (src : Source P I) : List (Stmt P) → Ctx → Except (AErr I) (List (Stmt P) × Ctx)
  | [], c => return ([], c)
  | s :: ss, c => do
    let (s, c) ← analyse src s c
    return (s :: ss, c)
end

/-- `xdocument.analyse` in a new context, ast.py:392-397, 2030-2033; `first` is the number of slots
created by other documents. -/
def analyseDocument (src : Source P I) (first : Slot) (globals : Dict Str (Val P))
    (children : List (Stmt P)) : Except (AErr I) (Document P) := do
  let (ins, c1) ← valueSlots globals { next := first }
  let (children, c2) ← analyseAll src children c1
  return { slotsIn := ins.map Prod.snd, children := children,
           slotsOut := (Dict.update [] (c2.binds.drop c1.binds.length)).map (fun p => (p.1, p.2.id)) }

/-- A name with its mark, ast.py:2021-2023. `name[0]` of an empty name is an `IndexError`. -/
def markName (mark : Char) : Str → Option Str
  | [] => none
  | c :: cs => some (if c = '%' ∨ c = '$' then c :: cs else mark :: c :: cs)

/-- The dict comprehension of ast.py:2021 or 2023, added to `d`. -/
def addMarked {V : Type} (mark : Char) : List (Str × V) → Dict Str V → Option (Dict Str V)
  | [], d => some d
  | (n, v) :: rest, d =>
    match markName mark n with
    | some m => addMarked mark rest (Dict.set d m v)
    | none => none

/-- `HypertagAST.make_context`, ast.py:2012-2025. An empty or missing dict is skipped, which makes no
difference. `none` is `IndexError`. -/
def makeContext {V : Type} (tags variables : Dict Str V) : Option (Dict Str V) := do
  let d ← addMarked '%' tags []
  addMarked '$' variables d

/-- The definitions of hypertags in a tree. -/
def DefInfo.ofDefn (ba : Option AttrDef) (as : List AttrDef) (b : Stmt P) : DefInfo P :=
  { bodyAttr := ba, attrs := as, body := b }

mutual
def Stmt.defs : Stmt P → List (DefId × DefInfo P)
  | .xblock _ _ b => b.defs
  | .struct _ b => b.defs
  | .defn id _ _ ba as b => (id, DefInfo.ofDefn ba as b) :: b.defs
  | .tryBlock bs => Stmt.defsAll bs
  | .ifBlock cs els => Stmt.defsClauses cs ++ Stmt.defsOpt els
  | .elseClause b => Stmt.defsOpt b
  | .whileBlock _ b els => Stmt.defsOpt b ++ Stmt.defsOpt els
  | .forBlock _ _ rest => Stmt.defsAll rest
  | .body ss => Stmt.defsAll ss
  | _ => []
def Stmt.defsAll : List (Stmt P) → List (DefId × DefInfo P)
  | [] => []
  | s :: ss => s.defs ++ Stmt.defsAll ss
def Stmt.defsOpt : Option (Stmt P) → List (DefId × DefInfo P)
  | none => []
  | some s => s.defs
def Stmt.defsClause : Expr × Option (Stmt P) → List (DefId × DefInfo P)
  | (_, b) => Stmt.defsOpt b
def Stmt.defsClauses : List (Expr × Option (Stmt P)) → List (DefId × DefInfo P)
  | [] => []
  | c :: cs => Stmt.defsClause c ++ Stmt.defsClauses cs
end

end
end Verif
