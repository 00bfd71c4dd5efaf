import Verif.Model.PyModule
import Verif.Model.Dom

/-
The standard tags and functions: `src/hypertag/std/html.py`, lines 29-47, 73 and 81, the decorators of
`src/hypertag/std/builtins.py`, and the modules `src/hypertag/html.py` and `src/hypertag/builtins.py`, which are listed
in `HyperHTML.BUILTINS`, `core/run_html.py:14`.
-/

namespace Verif
open Py

/-- `_HTML_TAGS_VOID`, html.py:29: `split()` of a literal with single blanks. -/
def htmlTagsVoid : List Str :=
  split ' ' (s!!"area base br col command embed hr img input link meta param source track wbr")

/-- `_HTML_TAGS_NONVOID`, html.py:30-36. -/
def htmlTagsNonvoid : List Str :=
  split ' ' (s!!"a abbr acronym address applet article aside audio b basefont bdi bdo big blockquote body button canvas caption center cite code colgroup data datalist dd del details dfn dialog dir div dl dt em fieldset figcaption figure font footer form frame frameset h1 h2 h3 h4 h5 h6 head header html i iframe ins kbd label legend li main map mark meter nav noframes noscript object ol optgroup option output p picture pre progress q rp rt ruby s samp script section select small span strike strong style sub summary sup svg table tbody td template textarea tfoot th thead time title tr tt u ul var video")

/-- `name.lower()`. Simplification: only ASCII letters are changed, as the names of the two lists are ASCII. -/
def lowerName (name : Str) : Str := name.map Char.toLower

/-- `name.upper()`, in the same way. -/
def upperName (name : Str) : Str := name.map Char.toUpper

/-- Functions defined in `std/builtins.py`. -/
inductive StdFn where
  | doctype | dedent | unique | merge | inline | lower | upper | cycle | changes | crop
  deriving DecidableEq, Repr

/-- `fun.__name__` -/
def StdFn.name : StdFn → Str
  | .doctype => s!!"doctype"
  | .dedent => s!!"dedent"
  | .unique => s!!"unique"
  | .merge => s!!"merge"
  | .inline => s!!"inline"
  | .lower => s!!"lower"
  | .upper => s!!"upper"
  | .cycle => s!!"cycle"
  | .changes => s!!"changes"
  | .crop => s!!"crop"

/-- Objects of the standard modules: tags, functions, `TagFunction` objects (tag.py:48-58), the dictionary `register.tags`,
and other attributes of modules. -/
inductive StdObj where
  | tag (t : TagObj)
  | fn (f : StdFn)
  | tagFn (f : StdFn)
  | table
  | other (k : Nat)
  deriving DecidableEq, Repr

/-- What `PyModule` asks about them; `tags` are the contents of the dictionary. `TagFunction.name` is the name of the
function, tag.py:53; objects that are not tags have no attribute `name`. -/
def stdObjects (tags : Dict Str StdObj) : PyObjects StdObj Unit where
  truth
    | .table => !tags.isEmpty
    | _ => true
  dict
    | .table => some tags
    | _ => none
  name
    | .tag t => .ok (some t.name)
    | .tagFn f => .ok (some f.name)
    | _ => .error ()

/-- `TagFunction(fun)` and `fun.__name__`; only functions are given to it. -/
def stdFunctions : PyFunctions StdObj where
  tagFunction
    | .fn f => .tagFn f
    | o => o
  funName
    | .fn f => f.name
    | _ => []

/-- `_create(name, void)`, html.py:38-41. -/
def createTag (void : Bool) (name : Str) : List (RegCall StdObj Unit) :=
  [.tag (.obj (.tag (.markup (lowerName name) void .html))), .tag (.obj (.tag (.markup (upperName name) void .html)))]

/-- The calls of the registry in `std/html.py`: the loops at lines 46-47 and lines 73 and 81. -/
def htmlCalls (nonvoid void : List Str) : List (RegCall StdObj Unit) :=
  nonvoid.flatMap (createTag false) ++ void.flatMap (createTag true) ++
    [.tag (.obj (.tag .custom)), .tag (.cls (.ok (.tag .comment)))]

/-- `@register.tag @register.var def fun`: the inner decorator is called first. -/
def tagAndVar (f : StdFn) : List (RegCall StdObj Unit) := [.var f.name (.fn f), .tag (.fn (.fn f))]

/-- `@register.var def fun` -/
def onlyVar (f : StdFn) : List (RegCall StdObj Unit) := [.var f.name (.fn f)]

/-- The calls of the registry in `std/builtins.py`: the decorators at lines 19-75, 80, 110 and 126, and line 154. -/
def builtinCalls : List (RegCall StdObj Unit) :=
  [StdFn.doctype, .dedent, .unique, .merge, .inline, .lower, .upper].flatMap tagAndVar ++
    [StdFn.cycle, .changes, .crop].flatMap onlyVar ++ [.var (s!!"truncate") (.fn .crop)]

/-- Attributes of the modules `hypertag/html.py` and `hypertag/builtins.py`, lines 9-14 of both: `__tags__`, the registered
variables, and those that every module has; `register` is deleted. -/
def stdAttrs (r : Registry StdObj) (others : List (Str × StdObj)) : List (Str × StdObj) :=
  (s!!"__tags__", .table) :: r.vars ++ others

/-- Symbols of such a module. -/
def stdModule (r : Registry StdObj) (others : List (Str × StdObj)) : Except (PyModErr Unit) (Dict Str StdObj) :=
  pyModule (stdObjects r.tags) (stdAttrs r others)

end Verif
