import Verif.Model.Analyse
import Verif.Model.PyModule

/-
Arguments of `Runtime.render` on their way to the script, `src/hypertag/core/runtime.py`, lines 114-118 and
354-369, `src/hypertag/core/ast.py`, lines 2035-2041; and the backend for Django,
`src/hypertag/django/backend.py`.
-/

namespace Verif
open Py

/-- Exceptions on the way: a keyword that is the name of a parameter already given (`TypeError`), a value
of `__tags__` that is true and has no items (`AttributeError`), an empty name (`IndexError`). -/
inductive PassErr where
  | typeError
  | attribute
  | index
  deriving DecidableEq, Repr

/-- Python's binding of keyword arguments `kw` in a call of a function whose parameters `given` are
already given by position, and which takes `named` and the rest as `**rest`. -/
def bindKeywords {O : Type} (given named : List Str) (kw : Dict Str O) :
    Except PassErr (List (Option O) × Dict Str O) :=
  if given.any (fun n => n ∈ kw.keys) then .error .typeError
  else .ok (named.map kw.get?, kw.filter (fun p => p.1 ∉ named))

/-- What a script receives: the two variables added to the built-in symbols, runtime.py:358-359 (`none` is
`None`), and the context, ast.py:2039. -/
structure Received (O : Type) where
  file : Option O
  package : Option O
  context : Dict Str O
  deriving DecidableEq, Repr

/-- `if tags: ... tags.items()`, ast.py:2019-2021. Simplification: true objects with `items` are dictionaries. -/
def tagItems {O E : Type} (W : PyObjects O E) : Option O → Except PassErr (Dict Str O)
  | none => .ok []
  | some t =>
    if W.truth t then
      match W.dict t with
      | none => .error .attribute
      | some d => .ok d
    else .ok []

/-- `HypertagAST.translate(builtins, tags, **variables)` up to the context, ast.py:2035-2039. -/
def astTranslate {O E : Type} (W : PyObjects O E) (file package tags : Option O) (vars : Dict Str O) :
    Except PassErr (Received O) :=
  match bindKeywords ["self".toList, "__builtins__".toList, "__tags__".toList] [] vars with
  | .error e => .error e
  | .ok (_, vars) =>
    match tagItems W tags with
    | .error e => .error e
    | .ok t =>
      match makeContext t vars with
      | none => .error .index
      | some c => .ok ⟨file, package, c⟩

/-- `HyModule.translate(builtins, tags, **variables)`, runtime.py:114-118. Simplification: the script can
be parsed (an exception of the parser comes between the two bindings). -/
def moduleTranslate {O E : Type} (W : PyObjects O E) (file package tags : Option O) (vars : Dict Str O) :
    Except PassErr (Received O) :=
  match bindKeywords ["self".toList, "builtins".toList, "__tags__".toList] [] vars with
  | .error e => .error e
  | .ok (_, vars) => astTranslate W file package tags vars

/-- `Runtime.translate(script, file, package, tags, **variables)`, runtime.py:354-364. -/
def runtimeTranslate {O E : Type} (W : PyObjects O E) (file package tags : Option O) (vars : Dict Str O) :
    Except PassErr (Received O) :=
  match bindKeywords ["self".toList, "__script__".toList, "__file__".toList, "__package__".toList,
      "__tags__".toList] [] vars with
  | .error e => .error e
  | .ok (_, vars) => moduleTranslate W file package tags vars

/-- `runtime.render(script, **kw)`, runtime.py:366-369, up to the translation. -/
def runtimeRender {O E : Type} (W : PyObjects O E) (kw : Dict Str O) : Except PassErr (Received O) :=
  match bindKeywords ["self".toList, "__script__".toList]
      ["__file__".toList, "__package__".toList, "__tags__".toList] kw with
  | .error e => .error e
  | .ok ([file, package, tags], vars) => runtimeTranslate W file package tags vars
  | .ok _ => .error .typeError

/-! ### Django -/

/-- A request and the two values made of it, backend.py:71-73. -/
structure DjRequest (O : Type) where
  request : O
  csrfInput : O
  csrfToken : O

/-- `Template`, backend.py:61-66. -/
structure DjTemplate where
  view : Str
  filename : Option Str

/-- The dictionary `context` of `Template.render` when `engine.render` is called, backend.py:68-76. It is
the dictionary object of the caller if there was one. `str` makes an object of a string. -/
def djContext {O : Type} (str : Str → O) (t : DjTemplate) (context : Option (Dict Str O))
    (request : Option (DjRequest O)) : Dict Str O :=
  let c := context.getD []
  let c := match request with
    | none => c
    | some r => ((c.set "request".toList r.request).set "csrf_input".toList r.csrfInput).set
        "csrf_token".toList r.csrfToken
  match t.filename with
  | none => c
  | some f => if f ≠ [] ∧ "__file__".toList ∉ c.keys then c.set "__file__".toList (str f) else c

/-- `Template.render(context, request)`, backend.py:68-78: what the script receives, and the content of the
dictionary of the caller afterwards. -/
def djRender {O E : Type} (W : PyObjects O E) (str : Str → O) (t : DjTemplate)
    (context : Option (Dict Str O)) (request : Option (DjRequest O)) :
    Except PassErr (Received O) × Option (Dict Str O) :=
  let c := djContext str t context request
  (runtimeRender W c, context.map (fun _ => c))

/-- Templates rendered one after another with the same dictionary object. -/
def djRenderAll {O E : Type} (W : PyObjects O E) (str : Str → O) :
    Dict Str O → List (DjTemplate × Option (DjRequest O)) → List (Except PassErr (Received O))
  | _, [] => []
  | c, (t, r) :: rest =>
    let x := djRender W str t (some c) r
    x.1 :: djRenderAll W str (x.2.getD c) rest

/-- `Hypertag.get_template(name)`, backend.py:47-58: `files` are the candidates of
`iter_template_filenames(name)`, `read` is the content of a file (`none` is `FileNotFoundError`; other
errors are not considered). The result is the template, or the files tried. -/
def getTemplate (read : Str → Option Str) : List Str → Except (List Str) DjTemplate
  | [] => .error []
  | f :: files =>
    match read f with
    | some script => .ok ⟨script, some f⟩
    | none =>
      match getTemplate read files with
      | .error tried => .error (f :: tried)
      | .ok t => .ok t

end Verif
