import Verif.Spec.Scope

/-
What the analysis of a script must check, and in which order. The script is given as it was parsed. A
check is `none` if it is passed, otherwise the exception it raises. There are no contexts, slots or
depths here: only the list of symbols in scope, and whether the place is inside of a control block and
still in the prolog.

Clauses of a `for` block after the first one are not checked at all, nor do their definitions count (see
C56 for what follows from that).
-/

namespace Verif
open Py

namespace Spec

section
variable {P I : Type}

/-- The exception of the first check that is not passed. -/
def firstFailed : List (Option (AErr I)) → Option (AErr I)
  | [] => none
  | some e :: _ => some e
  | none :: cs => firstFailed cs

/-! ### Names -/

/-- An occurrence of a name in an expression. -/
inductive Use where
  | var (name : Str)
  | tag (sym : Str)

mutual
/-- The names of an expression, in the order of the text. -/
def names : Expr → List Use
  | .root _ e => names e
  | .tagUse sym _ => [.tag sym]
  | .varUse name _ => [.var name]
  | .factor atom tail _ => names atom ++ namesTails tail
  | .chain _ head _ es => names head ++ namesAll es
  | .concat es => namesAll es
  | .bits _ head es => names head ++ namesAll es
  | .pipeline head fs => names head ++ namesAll fs
  | .notTest _ e => names e
  | .andTest head es => names head ++ namesAll es
  | .orTest head es => names head ++ namesAll es
  | .ifElse x t y => names x ++ names t ++ namesOpt y
  | .list es => namesAll es
  | .tuple es => namesAll es
  | .set es => namesAll es
  | .dict es => namesAll es
  | .format es => namesAll es
  | .static _ => []
  | .strLit _ => []
  | .number _ => []
  | .boolean _ => []
  | .noneLit => []
  | .sliceNone => []
def namesAll : List Expr → List Use
  | [] => []
  | e :: es => names e ++ namesAll es
def namesOpt : Option Expr → List Use
  | none => []
  | some e => names e
def namesTails : List Tail → List Use
  | [] => []
  | t :: ts => namesTail t ++ namesTails ts
def namesTail : Tail → List Use
  | .call _ args => namesAll args
  | .partialCall _ args => namesAll args
  | .index es => namesAll es
  | .member _ => []
end

def namesLine : Line → List Use
  | .verbat _ => []
  | .normal ps => namesAll ps
  | .markup ps => namesAll ps

def namesItem : TextItem → List Use
  | .line l => namesLine l
  | _ => []

/-- A tag: its attributes first, then its name. -/
def namesTag : TagExp → List Use
  | .tag name _ us ns => namesAll us ++ ns.flatMap (fun n => names n.2) ++ [.tag ('%' :: name)]
  | .null => []

/-- A name that is used must be in scope. -/
def inScope (S : List Str) : Use → Option (AErr I)
  | .var name => if '$' :: name ∈ S then none else some (.undefinedVar ('$' :: name))
  | .tag sym => if sym ∈ S then none else some (.undefinedTag sym)

def usesOf (S : List Str) (us : List Use) : List (Option (AErr I)) := us.map (inScope S)

/-! ### Symbols that are defined -/

/-- A symbol: `$` or `%`, and a name. -/
def IsSymbol (sym : Str) : Bool :=
  match sym with
  | c :: _ :: _ => c == '$' || c == '%'
  | _ => false

/-- Whatever is defined must be a symbol. -/
def symbolCheck (sym : Str) : Option (AErr I) := if IsSymbol sym then none else some .assertion

mutual
/-- A target of an assignment; an in-place assignment uses it, too. -/
def targetChecks (S : List Str) : Target → List (Option (AErr I))
  | .var name read _ _ =>
    (if read then [inScope S (.var name)] else []) ++ [symbolCheck ('$' :: name)]
  | .many ts => targetsChecks S ts
def targetsChecks (S : List Str) : List Target → List (Option (AErr I))
  | [] => []
  | t :: ts => targetChecks S t ++ targetsChecks (S ++ t.defines) ts
end

/-- The module of an import must load. -/
def loadCheck (src : Source P I) (path : Option Str) : Option (AErr I) :=
  match src.modules path with
  | .ok _ => none
  | .error x => some (.loader x)

/-- The symbols of the module. -/
def moduleSymbols (src : Source P I) (path : Option Str) : List Str :=
  match src.modules path with
  | .ok (symbols, _) => symbols.map Prod.fst
  | .error _ => []

/-- What is imported must be there. -/
def presentCheck (table : List Str) (sym : Str) : Option (AErr I) :=
  if sym ∈ table then none else some (.importErr sym)

/-- An item of an import. For `import *` every symbol of the module must have a name, whose first
character tells if it is public. -/
def itemChecks (src : Source P I) (path : Option Str) : ImportItem P → List (Option (AErr I))
  | .wild _ => [loadCheck src path] ++
    (moduleSymbols src path).map (fun s => if 2 ≤ s.length then none else some .index) ++
    (wildNames src path).map symbolCheck
  | .name sym ren _ =>
    [if path = none then some .assertion else none, loadCheck src path,
      presentCheck (moduleSymbols src path) sym, symbolCheck (asName sym ren)]
  | .cntx sym ren _ =>
    [presentCheck (src.context.map Prod.fst) sym, symbolCheck (asName sym ren)]

/-! ### Statements -/

mutual
/-- The symbols that are in scope after the statement in addition to those before. -/
def defined (src : Source P I) : Stmt P → List Str
  | .xblock _ _ b => defined src b
  | .defn _ name _ _ _ _ => ['%' :: name]
  | .imports _ path items => items.flatMap (fun i => i.defines src path)
  | .tryBlock bs => definedAll src bs
  | .ifBlock cs els => definedClauses src cs ++ definedOpt src els
  | .elseClause b => definedOpt src b
  | .whileBlock _ b els => definedOpt src b ++ definedOpt src els
  | .forBlock t _ rest => t.defines ++ definedFirst src rest
  | .assign t _ _ => t.defines
  | .body ss => definedAll src ss
  | _ => []
def definedAll (src : Source P I) : List (Stmt P) → List Str
  | [] => []
  | s :: ss => defined src s ++ definedAll src ss
def definedOpt (src : Source P I) : Option (Stmt P) → List Str
  | none => []
  | some s => defined src s
def definedClause (src : Source P I) : Expr × Option (Stmt P) → List Str
  | (_, b) => definedOpt src b
def definedClauses (src : Source P I) : List (Expr × Option (Stmt P)) → List Str
  | [] => []
  | c :: cs => definedClause src c ++ definedClauses src cs
def definedFirst (src : Source P I) : List (Stmt P) → List Str
  | [] => []
  | s :: _ => defined src s
end

/-- Comments and context blocks may stand in the prolog. -/
def prologBlock : Stmt P → Bool
  | .comment => true
  | .imports true _ _ => true
  | _ => false

mutual
/-- The prolog is not over after the statement, if it was not before. -/
def inProlog : Stmt P → Bool
  | .xblock _ _ b => prologBlock b && inProlog b
  | .struct _ b => inProlog b
  | .defn _ _ _ _ _ b => inProlog b
  | .tryBlock bs => inPrologAll bs
  | .ifBlock cs els => inPrologClauses cs && inPrologOpt els
  | .elseClause b => inPrologOpt b
  | .whileBlock _ b els => inPrologOpt b && inPrologOpt els
  | .forBlock _ _ rest => inPrologFirst rest
  | .body ss => inPrologAll ss
  | _ => true
def inPrologAll : List (Stmt P) → Bool
  | [] => true
  | s :: ss => inProlog s && inPrologAll ss
def inPrologOpt : Option (Stmt P) → Bool
  | none => true
  | some s => inProlog s
def inPrologClause : Expr × Option (Stmt P) → Bool
  | (_, b) => inPrologOpt b
def inPrologClauses : List (Expr × Option (Stmt P)) → Bool
  | [] => true
  | c :: cs => inPrologClause c && inPrologClauses cs
def inPrologFirst : List (Stmt P) → Bool
  | [] => true
  | s :: _ => inProlog s
end

/-- Something that may not stand at its place. -/
def placeCheck (allowed : Bool) : Option (AErr I) := if allowed then none else some .syntaxErr

mutual
/-- The checks of a statement: `S` is the list of symbols in scope, `ctl` tells if it is inside of a
control block, `pro` if it is in the prolog. -/
def checks (src : Source P I) (S : List Str) (ctl pro : Bool) : Stmt P → List (Option (AErr I))
  | .static _ => []
  | .indent _ => []
  | .dedent _ => []
  | .line l => usesOf S (namesLine l)
  | .xblock _ _ b => checks src S ctl (pro && prologBlock b) b
  | .text _ items => usesOf S (items.flatMap namesItem)
  | .comment => []
  | .embed e => usesOf S (names e)
  | .struct tags b => usesOf S (tags.flatMap namesTag) ++ checks src S ctl pro b
  | .defn _ name _ ba as b =>
    [placeCheck (!ctl)] ++
    usesOf S ((ba.toList ++ as).flatMap (fun a => namesOpt a.default)) ++
    (attrNames ba as).map symbolCheck ++
    checks src (S ++ attrNames ba as) ctl pro b ++
    [symbolCheck ('%' :: name)]
  | .imports true path items => [placeCheck pro] ++ items.flatMap (itemChecks src path)
  | .imports false path items => [placeCheck (!ctl)] ++ items.flatMap (itemChecks src path)
  | .tryBlock bs => checksAll src S true pro bs
  | .ifBlock cs els => checksClauses src S pro cs ++
    checksOpt src (S ++ definedClauses src cs) true (pro && inPrologClauses cs) els
  | .elseClause b => checksOpt src S ctl pro b
  | .whileBlock t b els => usesOf S (names t) ++ checksOpt src S true pro b ++
    checksOpt src (S ++ definedOpt src b) true (pro && inPrologOpt b) els
  | .forBlock t e rest => usesOf S (names e) ++ targetChecks S t ++
    checksFirst src (S ++ t.defines) pro rest
  | .exprBlock e => usesOf S (names e)
  | .assign t _ e => usesOf S (names e) ++ targetChecks S t
  | .body ss => checksAll src S ctl pro ss
  | .pass => []
def checksAll (src : Source P I) (S : List Str) (ctl pro : Bool) :
    List (Stmt P) → List (Option (AErr I))
  | [] => []
  | s :: ss => checks src S ctl pro s ++
    checksAll src (S ++ defined src s) ctl (pro && inProlog s) ss
def checksOpt (src : Source P I) (S : List Str) (ctl pro : Bool) :
    Option (Stmt P) → List (Option (AErr I))
  | none => []
  | some s => checks src S ctl pro s
def checksClause (src : Source P I) (S : List Str) (pro : Bool) :
    Expr × Option (Stmt P) → List (Option (AErr I))
  | (t, b) => usesOf S (names t) ++ checksOpt src S true pro b
def checksClauses (src : Source P I) (S : List Str) (pro : Bool) :
    List (Expr × Option (Stmt P)) → List (Option (AErr I))
  | [] => []
  | c :: cs => checksClause src S pro c ++
    checksClauses src (S ++ definedClause src c) (pro && inPrologClause c) cs
def checksFirst (src : Source P I) (S : List Str) (pro : Bool) :
    List (Stmt P) → List (Option (AErr I))
  | [] => []
  | s :: _ => checks src S true pro s
end

/-- The checks of a document: the global symbols, then its blocks, in the prolog. -/
def documentChecks (src : Source P I) (globals : List Str) (children : List (Stmt P)) :
    List (Option (AErr I)) :=
  globals.map symbolCheck ++ checksAll src globals false true children

/-! ### Places -/

/-- `Occurs inside s t`: `t` is a part of `s` that is checked; `inside` tells if it is in a control block
of `s`. -/
inductive Occurs : Bool → Stmt P → Stmt P → Prop
  | here (s) : Occurs false s s
  | xblock {k m mo b t} : Occurs k b t → Occurs k (.xblock m mo b) t
  | struct {k tags b t} : Occurs k b t → Occurs k (.struct tags b) t
  | defn {k id n sl ba as b t} : Occurs k b t → Occurs k (.defn id n sl ba as b) t
  | body {k ss s t} : s ∈ ss → Occurs k s t → Occurs k (.body ss) t
  | elseClause {k b t} : Occurs k b t → Occurs k (.elseClause (some b)) t
  | tryBlock {k bs s t} : s ∈ bs → Occurs k s t → Occurs true (.tryBlock bs) t
  | ifClause {k cs els e b t} : (e, some b) ∈ cs → Occurs k b t → Occurs true (.ifBlock cs els) t
  | ifElse {k cs b t} : Occurs k b t → Occurs true (.ifBlock cs (some b)) t
  | whileBody {k e b els t} : Occurs k b t → Occurs true (.whileBlock e (some b) els) t
  | whileElse {k e b els t} : Occurs k els t → Occurs true (.whileBlock e b (some els)) t
  | forBody {k tg e b rest t} : Occurs k b t → Occurs true (.forBlock tg e (b :: rest)) t

end
end Spec
end Verif
