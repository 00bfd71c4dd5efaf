import Verif.Model.Script
import Verif.Model.Text

/-
Translation of statements to DOM: `src/hypertag/core/ast.py`, lines 120-140, 354-1206.
`translate(state)` returns `None` or a `DOM`, i.e., a list of nodes.
-/

namespace Verif
open Py

section
variable {P X W : Type} (E : Env P X W)

/-! ### Lines and text blocks -/

/-- `line.render_inline(state)`, ast.py:1092-1109. -/
def renderLine (σ : StateId) : Line → Comp P X W Str
  | .verbat s => return s
  | .markup parts => evalStrs E σ parts
  | .normal parts => do
    let text ← evalStrs E σ parts
    match E.ops.escape with
    | some f => runPy E (f text)
    | .none => return text

/-- `node.render(state)` for the children of a text block, ast.py:1086-1087, 366, 1820-1832. -/
def renderItem (σ : StateId) : TextItem → Comp P X W Str
  | .line l => do
    -- `state.indentation` is read first
    let ind ← curIndent σ
    let s ← renderLine E σ l
    return ind ++ s
  | .margin s => return s
  | .indent c => do
    doIndent σ c
    return []
  | .dedent c => do
    doDedent σ c
    return []

/-- `_render_all(self.children, state)`, ast.py:348-350. -/
def renderItems (σ : StateId) : List TextItem → Comp P X W Str
  | [] => return []
  | t :: ts => do
    let s ← renderItem E σ t
    let ss ← renderItems σ ts
    return s ++ ss

/-- What `block_text.render` does with the rendered children, ast.py:481, 485-500. -/
def layoutText (lead : Nat) (body : Str) : Str :=
  let output := List.replicate lead ' ' ++ body
  let sub := (getIndent output).take (lead + 1)
  let output := delIndentBy output sub
  if sub.length < lead then
    let drop := lead - sub.length
    let drop := if (output.drop drop).take 1 = [' '] then drop + 1 else drop
    output.drop drop
  else output

/-- `block_text.render(state)`, ast.py:469-500. -/
def renderText (σ : StateId) (lead : Nat) (items : List TextItem) : Comp P X W Str := do
  let body ← keepIndent σ (do
    putIndent σ []
    renderItems E σ items)
  return layoutText lead body

/-! ### Assignment -/

/-- `for v in ..` at the end of the target list, ast.py:1056-1060. -/
def unpackEnd (it : Val P) : Comp P X W Unit := do
  match ← runPy E (E.ops.next it) with
  | .none => return ()
  | some _ => Comp.raise .valueErr

mutual
/-- `target.assign(state, value)`: ast.py:1409-1411 and 1047-1060. -/
def assignTarget (σ : StateId) : Target → Val P → Comp P X W Unit
  | .var _ _ _ slotWrite, v =>
    match slotWrite with
    | some sl => setSlot σ sl v
    | .none => Comp.raise .unresolved
  | .many [t], v => assignTarget σ t v
  | .many ts, v => do
    let it ← runPy E (E.ops.iter v)
    unpackTargets σ ts it
/-- The loop of `xtargets.assign`, ast.py:1055-1060. -/
def unpackTargets (σ : StateId) : List Target → Val P → Comp P X W Unit
  | [], it => unpackEnd E it
  | t :: ts, it => do
    match ← runPy E (E.ops.next it) with
    | .none => Comp.raise .valueErr
    | some v => do
      assignTarget σ t v
      unpackTargets σ ts it
end

/-- `targets.evaluate(state)`, ast.py:1062-1064, 1400-1407; used for in-place assignments only, whose
target is a single variable (1019-1021). -/
def evalTarget (σ : StateId) : Target → Comp P X W (Val P)
  | .many [.var _ true slotRead _] => readName σ slotRead
  | _ => Comp.raise .assertion

/-! ### Tags -/

/-- The loop of `_eval_attrs`, ast.py:1190-1196. -/
def evalNamed (σ : StateId) : List (Str × Expr) → Dict Str (Val P) → Comp P X W (Dict Str (Val P))
  | [], named => return named
  | (name, e) :: rest, named => do
    let value ← eval E σ e
    match Dict.get? named name with
    | some old => do
      -- `named[name] += ' ' + value`
      let t ← binOp E ['+'] (.str [' ']) value
      let new ← binOp E ['+', '='] old t
      evalNamed σ rest (Dict.set named name new)
    | .none => evalNamed σ rest (Dict.set named name value)

/-- `isinstance(tag, Tag)` etc., ast.py:1178-1185. `tag.expand` of a hypertag returns a `DOM`. -/
def applyTagValue (σ : StateId) (v : Val P) (body : List Ref) (attrs : List (Val P))
    (kw : Dict Str (Val P)) : Comp P X W (List Ref) :=
  match v with
  | .hyper h => E.expand h (.dom body) attrs kw σ
  | .py p =>
    if E.ops.isTag p then do
      let r ← newNode .node body .none (some (.ext p)) (some attrs) (some kw)
      return [r]
    else Comp.raise .notATag
  | _ => Comp.raise .notATag

/-- `self.tag.get(state)`, ast.py:1175-1176: `KeyError` if the slot is empty. -/
def readTag (σ : StateId) (slot : Option Slot) : Comp P X W (Val P) :=
  match slot with
  | .none => Comp.raise .unresolved
  | some sl => do
    match ← getSlot σ sl with
    | some v => return v
    | .none => Comp.raise .key

/-- `tag.translate_tag(state, body)`, ast.py:1168-1198, 1200-1202. -/
def translTag (σ : StateId) (t : TagExp) (body : List Ref) : Comp P X W (List Ref) :=
  match t with
  | .tag _ slot unnamed named => do
    let attrs ← evalList E σ unnamed
    let kw ← evalNamed E σ named []
    let v ← readTag σ slot
    applyTagValue E σ v body attrs kw
  | .null => do
    let r ← newNode .node body .none (some .null) .none .none
    return [r]

/-- `tags.apply_tags(state, body)`, ast.py:1116-1120: `tags` is the reversed list. -/
def applyTags (σ : StateId) : List TagExp → List Ref → Comp P X W (List Ref)
  | [], body => return body
  | t :: ts, body => do
    let b ← translTag E σ t body
    applyTags σ ts b

/-! ### Embedding -/

/-- `DOM(*body)`: the nodes that an element contributes, dom.py:119-130. -/
def flattenVal (v : Val P) : Comp P X W (List Ref) :=
  match v with
  | .none => return []
  | .dom ns => return ns
  | .node r => return [r]
  | .py p => runPy E (E.ops.flatten p)
  | _ => Comp.raise .typeErr

def flattenVals : List (Val P) → Comp P X W (List Ref)
  | [] => return []
  | v :: vs => do
    let ns ← flattenVal E v
    let rest ← flattenVals vs
    return ns ++ rest

/-- `_as_sequence`, ast.py:522-529. -/
def asSequence (v : Val P) : Comp P X W (List Ref) :=
  match v with
  | .dom ns => return ns
  | .node r => return [r]
  | v => do
    let vs ← Comp.tryExcept (runPy E (E.ops.toList v)) (Comp.raise .typeErr)
    flattenVals E vs

/-! ### Imports -/

/-- `slot.set_value(state)` for a list of `ValueSlot`s. -/
def setSlots (σ : StateId) : List (Slot × Val P) → Comp P X W Unit
  | [] => return ()
  | (sl, v) :: rest => do
    setSlot σ sl v
    setSlots σ rest

/-- `item.translate(state)`, ast.py:719-720, 741-742, 767-768. -/
def translImport (σ : StateId) : ImportItem P → Comp P X W Unit
  | .wild slots =>
    match slots with
    | some l => setSlots σ l
    | .none => Comp.raise .unresolved
  | .name _ _ slot | .cntx _ _ slot =>
    match slot with
    | some (sl, v) => setSlot σ sl v
    | .none => Comp.raise .unresolved

def translImports (σ : StateId) : List (ImportItem P) → Comp P X W Unit
  | [] => return ()
  | i :: is => do
    translImport σ i
    translImports σ is

/-! ### Loops -/

/-- `while clause.test.evaluate(state): ..`, ast.py:919-922. Returns the nodes and whether the body was
never executed. -/
def whileLoop (test : Comp P X W Bool) (body : Comp P X W (List Ref)) :
    Nat → List Ref → Bool → Comp P X W (List Ref × Bool)
  | 0, _, _ => Comp.timeout
  | k + 1, out, empty => do
    let b ← test
    if b then do
      let ns ← body
      whileLoop test body k (out ++ ns) false
    else return (out, empty)

/-- `for value in sequence: ..`, ast.py:957-962. -/
def forLoop (next : Comp P X W (Option (Val P))) (step : Val P → Comp P X W (List Ref)) :
    Nat → List Ref → Bool → Comp P X W (List Ref × Bool)
  | 0, _, _ => Comp.timeout
  | k + 1, out, empty => do
    match ← next with
    | .none => return (out, empty)
    | some v => do
      let ns ← step v
      forLoop next step k (out ++ ns) false

/-- `for branch in self.children: try: .. except Exception: pass`, ast.py:866-872. -/
def tryLoop : List (Comp P X W (List Ref)) → Comp P X W (List Ref)
  | [] => return []
  | b :: bs => Comp.tryExcept b (tryLoop bs)

/-! ### Blocks -/

/-- The value of `translate()` used as a `DOM` (`None` is dropped, dom.py:123). -/
def nodesOf : Option (List Ref) → List Ref
  | some ns => ns
  | .none => []

/-- `margin.translate(state)`, ast.py:365. -/
def translStatic (s : Str) : Comp P X W (List Ref) :=
  match s with
  | [] => return []
  | s => do
    let r ← newText s .none
    return [r]

/-- The rest of `xblock.translate`, ast.py:453-462. -/
def finishBlock (modifier : Option Modifier) (margin : List Ref) (block : Option (List Ref)) :
    Comp P X W (List Ref) :=
  match block with
  | some (r :: rs) => do
    if modifier = some .append then pure () else setOutline true r
    if modifier = some .dedent then setIndent [] (r :: rs) else pure ()
    return margin ++ (r :: rs)
  | _ => return margin

/-- `body.set_indent(state.indentation); return body`. -/
def withIndent (σ : StateId) (ns : List Ref) : Comp P X W (Option (List Ref)) := do
  let ind ← curIndent σ
  setIndent ind ns
  return some ns

/-- `node.type == 'clause_else'`. -/
def Stmt.isElse : Stmt P → Bool
  | .elseClause _ => true
  | _ => false

/-- `out = DOM(*out)` or, if nothing was executed, the `else` clause, ast.py:925-928, 965-968. -/
def loopResult (r : List Ref × Bool) (els : Option (Comp P X W (List Ref))) :
    Comp P X W (List Ref) :=
  match r.2, els with
  | true, some c => c
  | _, _ => return r.1

/-- A missing body is an empty `DOM`: ast.py:891, 901, 928, 961. -/
def optBranch (c : Option (Comp P X W (List Ref))) : Comp P X W (List Ref) :=
  match c with
  | some c => c
  | .none => return []

/-- `assert len(self.children) == 1`, ast.py:907. -/
def requiredBranch (c : Option (Comp P X W (List Ref))) : Comp P X W (List Ref) :=
  match c with
  | some c => c
  | .none => Comp.raise .assertion

/-- `self.else_` of a `for` block: the last child if it is an `else` clause, ast.py:942. The first one
of the remaining children, if any, is `self.body` (941), even if it is an `else` clause. -/
def lastElse (rest : List (Stmt P)) (cs : List (Comp P X W (List Ref))) :
    Option (Comp P X W (List Ref)) :=
  if rest.getLast?.any Stmt.isElse then cs.getLast? else .none

/-- `self.oper(current, value)` of an in-place assignment, ast.py:1029-1031. -/
def inplace (σ : StateId) (targets : Target) (op : Option Str) (v : Val P) : Comp P X W (Val P) :=
  match op with
  | .none => return v
  | some op => do
    let cur ← evalTarget σ targets
    binOp E op cur v

mutual
/-- `node.translate(state)`. -/
def transl (σ : StateId) : Stmt P → Comp P X W (Option (List Ref))
  | .static s => do                                                    -- ast.py:365
    let ns ← translStatic s
    return some ns
  | .indent c => do                                                    -- ast.py:1816-1819
    doIndent σ c
    return .none
  | .dedent c => do                                                    -- ast.py:1827-1829
    doDedent σ c
    return .none
  | .line l => do                                                      -- ast.py:1084-1085
    let s ← renderLine E σ l
    let r ← newText s .none
    return some [r]
  | .xblock margin modifier block => do                                -- ast.py:451-462
    let m ← translStatic margin
    let b ← transl σ block
    let ns ← finishBlock modifier m b
    return some ns
  | .text lead items => do                                             -- ast.py:466-467
    let s ← renderText E σ lead items
    let ind ← curIndent σ
    let r ← newText s (some ind)
    return some [r]
  | .comment => return some []                                         -- ast.py:506
  | .embed e => do                                                     -- ast.py:516-520
    let v ← eval E σ e
    let ns ← asSequence E v
    withIndent σ ns
  | .struct tags body => do                                            -- ast.py:547-551
    let b ← transl σ body
    let ns ← applyTags E σ tags.reverse (nodesOf b)
    withIndent σ ns
  | .defn id _ slot _ _ _ =>                                           -- ast.py:611-613
    match slot with
    | some sl => do
      setSlot σ sl (.hyper (.defn id))
      return .none
    | .none => Comp.raise .unresolved
  | .imports _ _ items => do                                           -- ast.py:694-696
    translImports σ items
    return some []
  | .tryBlock branches => do                                           -- ast.py:865-872, 845-849
    let ns ← tryLoop (translEach σ branches)
    withIndent σ ns
  | .ifBlock clauses els => do                                         -- ast.py:885-891, 845-849
    let ns ← translIf σ clauses (translOpt σ els)
    withIndent σ ns
  | .elseClause body => do                                             -- ast.py:906-908
    let ns ← requiredBranch (translOpt σ body)
    return some ns
  | .whileBlock test body els => do                                    -- ast.py:913-931
    let r ← whileLoop (eval E σ test >>= truthOf E) (optBranch (translOpt σ body)) E.fuel [] true
    let ns ← loopResult r (translOpt σ els)
    withIndent σ ns
  | .forBlock targets e rest => do                                     -- ast.py:939-942, 952-971
    let seq ← eval E σ e
    let it ← runPy E (E.ops.iter seq)
    let r ← forLoop (runPy E (E.ops.next it))
      (fun v => do
        assignTarget E σ targets v
        optBranch (translEach σ rest).head?) E.fuel [] true
    let ns ← loopResult r (lastElse rest (translEach σ rest))
    withIndent σ ns
  | .exprBlock e => do                                                 -- ast.py:984-986
    let _ ← eval E σ e
    return .none
  | .assign targets op e => do                                         -- ast.py:1027-1033
    let v ← eval E σ e
    let v ← inplace E σ targets op v
    assignTarget E σ targets v
    return .none
  | .body children => do                                               -- ast.py:1070-1078
    let ns ← keepIndent σ (translAll σ children)
    return some ns
  | .pass => return some []                                            -- ast.py:1205-1206
/-- `DOM(n.translate(state) for n in nodes)`. -/
def translAll (σ : StateId) : List (Stmt P) → Comp P X W (List Ref)
  | [] => return []
  | s :: ss => do
    let a ← transl σ s
    let b ← translAll σ ss
    return nodesOf a ++ b
/-- The branches of a `try` block, or the children of a `for` block. -/
def translEach (σ : StateId) : List (Stmt P) → List (Comp P X W (List Ref))
  | [] => []
  | s :: ss => (do
      let a ← transl σ s
      return nodesOf a) :: translEach σ ss
/-- `_select_branch` of `xblock_if`, ast.py:885-891; `els` is the translation of the `else` clause. -/
def translIf (σ : StateId) : List (Expr × Option (Stmt P)) → Option (Comp P X W (List Ref)) →
    Comp P X W (List Ref)
  | [], els => optBranch els
  | c :: clauses, els => do
    let v ← eval E σ c.1
    let b ← truthOf E v
    if b then translBranch σ c
    else translIf σ clauses els
/-- `clause.translate(state)`, ast.py:900-901. -/
def translBranch (σ : StateId) : Expr × Option (Stmt P) → Comp P X W (List Ref)
  | (_, body) => optBranch (translOpt σ body)
/-- The optional body of a clause or the optional `else` clause of a block. -/
def translOpt (σ : StateId) : Option (Stmt P) → Option (Comp P X W (List Ref))
  | some s => some (do
      let a ← transl σ s
      return nodesOf a)
  | .none => .none
end

/-! ### Expansion of hypertags -/

/-- The slot of an attribute; a definition that was not analysed has none. -/
def assignAttr (σ : StateId) (slot : Option Slot) (v : Val P) : Comp P X W Unit :=
  match slot with
  | some sl => setSlot σ sl v
  | .none => Comp.raise .unresolved

/-- `kwattrs[attr] = value` for the positional attributes, ast.py:648-652; `kwattrs` is keyed by
attribute names instead of nodes (names are unique, 574-576). -/
def bindPositional : List AttrDef → List (Val P) → Dict Str (Val P) → Option (Dict Str (Val P))
  | a :: as, v :: vs, kw =>
    if (Dict.get? kw a.name).isSome then .none
    else bindPositional as vs (Dict.set kw a.name v)
  | _, _, kw => some kw

/-- Default values of missing attributes, ast.py:658-661. -/
def bindDefaults (σ : StateId) : List AttrDef → Dict Str (Val P) → Comp P X W (Dict Str (Val P))
  | [], kw => return kw
  | a :: as, kw =>
    if (Dict.get? kw a.name).isSome then bindDefaults σ as kw
    else
      match a.default with
      | .none => Comp.raise .typeErr
      | some e => do
        let v ← eval E σ e
        bindDefaults σ as (Dict.set kw a.name v)

/-- `attr.assign(state, value)` for all pairs in `kwattrs`, ast.py:664-665. -/
def assignAttrs (σ : StateId) (attrs : List AttrDef) : List (Str × Val P) → Comp P X W Unit
  | [] => return ()
  | (name, v) :: rest => do
    match attrs.find? (fun a => a.name = name) with
    | some a => assignAttr σ a.slot v
    | .none => Comp.raise .key
    assignAttrs σ attrs rest

/-- `self.attr_names`, ast.py:570: the attributes by name, including `@body`. -/
def DefInfo.isAttr (d : DefInfo P) (name : Str) : Bool :=
  (d.bodyAttr.any (fun a => decide (a.name = name))) || d.attrs.any (fun a => decide (a.name = name))

/-- `dom_attrs`, ast.py:644-654. -/
def domAttrs (d : DefInfo P) (attrs : List (Val P)) (kw : Dict Str (Val P)) : Dict Str (Val P) :=
  Dict.update (Dict.update [] ((d.attrs.map (·.name)).zip attrs)) kw

/-- Assignment of the body, ast.py:669-672. -/
def assignBody (σ : StateId) (a : Option AttrDef) (body : Val P) : Comp P X W Unit :=
  match a with
  | some a => assignAttr σ a.slot body
  | .none => do
    let b ← truthOf E body
    if b then Comp.raise .voidTag else return ()

/-- `_append_attrs`, ast.py:628-674. -/
def appendAttrs (σ : StateId) (d : DefInfo P) (body : Val P) (attrs : List (Val P))
    (kw : Dict Str (Val P)) : Comp P X W (Dict Str (Val P)) := do
  if d.attrs.length < attrs.length then Comp.raise .typeErr
  else if d.bodyAttr.any (fun a => (Dict.get? kw a.name).isSome) then Comp.raise .typeErr
  else if kw.any (fun p => !d.isAttr p.1) then Comp.raise .typeErr
  else
    match bindPositional d.attrs attrs kw with
    | .none => Comp.raise .typeErr
    | some kw1 => do
      let kw2 ← bindDefaults E σ d.attrs kw1
      assignAttrs σ d.attrs kw2
      assignBody E σ d.bodyAttr body
      return domAttrs d attrs kw

/-- `if output: output[0].set_outline(False)`, ast.py:625. -/
def firstInline (ns : List Ref) : Comp P X W Unit :=
  match ns with
  | [] => return ()
  | r :: _ => setOutline false r

/-- `xblock_def.expand`, ast.py:615-626. -/
def expandDef (id : DefId) (d : DefInfo P) (body : Val P) (attrs : List (Val P))
    (kw : Dict Str (Val P)) (σ : StateId) : Comp P X W (List Ref) := do
  let da ← appendAttrs E σ d body attrs kw
  let out ← transl E σ d.body
  let ind ← curIndent σ
  setIndent ind (nodesOf out)
  firstInline (nodesOf out)
  let r ← newNode .node (nodesOf out) (some ind) (some (.native id)) .none (some da)
  return [r]

/-- `hypertag.expand(..)`, ast.py:110-118, 615; `Γ` are the definitions. -/
def expandHyper (Γ : DefId → DefInfo P) :
    HVal → Val P → List (Val P) → List (Str × Val P) → StateId → Comp P X W (List Ref)
  | .imported h st, body, attrs, kw, _ => expandHyper Γ h body attrs kw st
  | .defn id, body, attrs, kw, σ => expandDef E id (Γ id) body attrs kw σ

/-- The body of `EmbeddedHypertag.__call__`, ast.py:136: a `DOM.Text` node or an empty `DOM`. -/
def embeddedBody (v : Val P) : Comp P X W (Val P) :=
  match v with
  | .none => return .dom []
  | v => do
    let s ← strOf E v
    let r ← newText s .none
    return .node r

/-- `EmbeddedHypertag.__call__`, ast.py:134-140. -/
def callEmbedded (c : Callback P) : Comp P X W (Val P) := do
  let body ← embeddedBody E c.body
  let dom ← E.expand c.tag body c.attrs c.kwattrs c.state
  setIndent [] dom
  let s ← runPy E (E.ops.render dom)
  return .str s

end

/-- The environment in which hypertags may be nested (or recursive) to the depth `n` and loops
iterate up to `n` times. -/
def envAt {P X W : Type} (ops : PyOps P X W) (Γ : DefId → DefInfo P) : Nat → Env P X W
  | 0 => { ops := ops, expand := fun _ _ _ _ _ => Comp.timeout, call := fun _ => Comp.timeout,
           fuel := 0 }
  | n + 1 => { ops := ops, expand := expandHyper (envAt ops Γ n) Γ, call := callEmbedded (envAt ops Γ n),
               fuel := n + 1 }

section
variable {P X W : Type} (E : Env P X W)

/-- The values of top-level symbols, ast.py:414-420. -/
def readSymbols (σ : StateId) : List (Str × Slot) → Comp P X W (Dict Str (Val P))
  | [] => return []
  | (sym, sl) :: rest => do
    let v ← getSlot σ sl
    let d ← readSymbols σ rest
    match v with
    | some v => return (sym, v) :: d
    | .none => return d

/-- `xdocument.translate`, ast.py:402-422. -/
def translDocument (σ : StateId) (doc : Document P) : Comp P X W (Ref × Dict Str (Val P)) := do
  setSlots σ doc.slotsIn
  let ns ← translAll E σ doc.children
  let root ← newNode .root ns (some ['\n']) .none .none .none
  let n ← readNode root
  writeNode root { n with indent := some [] }
  let symbols ← readSymbols σ doc.slotsOut
  return (root, symbols)

end
end Verif
