import Verif.Model.Loader
import Verif.Model.Dict

/-
Scripts that import scripts: `Runtime.import_module`, `HyLoader.load` and `Runtime.translate` of
`src/hypertag/core/runtime.py`, lines 227-284 and 343-364, calling each other.
-/

namespace Verif
open Py

/-- What the translation of a script (`Runtime.translate`, runtime.py:354-364, called for a file) does
as far as other modules are concerned: it ends with a module or an exception, or it asks
`Runtime.import_module` for a path (ast.py:690-702) and continues with the module it is given.
Simplification: everything else the translation does is in the answer function, a function of the
modules received; an exception of an import always ends the translation, as modules are imported in the
analysis, which has no exception handlers (`import` is not allowed in control blocks, ast.py:691). -/
inductive Script (M E : Type) where
  | done (r : Except E M)
  | request (path : Str) (k : M → Script M E)

/-- Exceptions of an import: of `HyLoader.load` before it reads a file, of `PyLoader.load`,
`ModuleNotFoundEx` (runtime.py:352), and those of the translation of a script. -/
inductive ProjErr (E : Type) where
  | hy (e : HyErr E)
  | py (e : E)
  | notFound
  | script (e : E)
  deriving DecidableEq, Repr

/-- The files and the modules a runtime can see. `script loc pkg` is the translation of the file at
`loc` as a module of the package `pkg`; `folder` is `os.path.dirname` of a location (`none` for the
empty string, which is false); `python` is `PyLoader.load`, `none` if it returns `None`.
Simplification: files do not change while the process runs. -/
structure Project (M E : Type) where
  env : HyEnv E
  script : Str → Option Str → Script M E
  folder : Str → Option Str
  python : Str → Referrer → Except E (Option M)

/-- The state of `HyLoader`: its cache, runtime.py:142; `translated` lists the locations whose
translation was completed, in order (it records calls and is not looked at). -/
structure HyState (M : Type) where
  cache : Dict Str M
  translated : List Str
  deriving DecidableEq

/-- `package = python_path.rsplit('.', 1)[0] if python_path else None`, runtime.py:276. -/
def packageOf : Option Str → Option Str
  | none => none
  | some [] => none
  | some (c :: p) => some (rsplitHead '.' (c :: p))

/-- `self.cache[location] = ...`, runtime.py:280. -/
def HyState.store {M} (st : HyState M) (loc : Str) (m : M) : HyState M :=
  { cache := st.cache.set loc m, translated := st.translated ++ [loc] }

/-- `PyLoader.load` as the second loader in the loop of `import_module`, then the exception,
runtime.py:348-352. -/
def fromPython {M E} (P : Project M E) (path : Str) (ref : Referrer) : Except (ProjErr E) M :=
  match P.python path ref with
  | .error e => .error (.py e)
  | .ok none => .error .notFound
  | .ok (some m) => .ok m

/-- The module of a cached location, runtime.py:244 and 264. -/
def fromCache {M E} (st : HyState M) (loc : Str) : Except (ProjErr E) M :=
  match st.cache.get? loc with
  | some m => .ok m
  | none => .error .notFound

/-- Runtime.py:280: a module is put into the cache when its translation has returned. -/
def keepModule {M E} (loc : Str) :
    Option (Except (ProjErr E) M × HyState M) → Option (Except (ProjErr E) M × HyState M)
  | some (.ok m, st) => some (.ok m, st.store loc m)
  | r => r

mutual

/-- `Runtime.import_module(path, referrer)` with the default loaders, runtime.py:343-352 and
`HyLoader.load`, runtime.py:227-284. `none` stands for a recursion deeper than `fuel`. -/
def importScript {M E} (P : Project M E) : Nat → HyState M → Str → Referrer →
    Option (Except (ProjErr E) M × HyState M)
  | 0, _, _, _ => none
  | fuel + 1, st, path, ref =>
    match hyLocate P.env st.cache.keys path ref with
    | .error e => some (.error (.hy e), st)
    | .ok .none => some (fromPython P path ref, st)
    | .ok (.cached loc) => some (fromCache st loc, st)
    | .ok (.read loc py) =>
      keepModule loc
        (runScript P fuel st { root := P.folder loc, package := packageOf py } (P.script loc (packageOf py)))

/-- The translation of a script, `Runtime.translate`, runtime.py:354-364: its imports are served one
after another, with the script as the referrer. -/
def runScript {M E} (P : Project M E) : Nat → HyState M → Referrer → Script M E →
    Option (Except (ProjErr E) M × HyState M)
  | 0, _, _, _ => none
  | _ + 1, st, _, .done (.ok m) => some (.ok m, st)
  | _ + 1, st, _, .done (.error e) => some (.error (.script e), st)
  | fuel + 1, st, ref, .request path k =>
    match importScript P fuel st path ref with
    | none => none
    | some (.error e, st) => some (.error e, st)
    | some (.ok m, st) => runScript P fuel st ref (k m)

end

/-- A sequence of imports served by one runtime, e.g. for the scripts rendered one after another.
`none` if one of them does not end. -/
def importAll {M E} (P : Project M E) (fuel : Nat) : HyState M → List (Str × Referrer) →
    Option (List (Except (ProjErr E) M) × HyState M)
  | st, [] => some ([], st)
  | st, (p, ref) :: reqs =>
    match importScript P fuel st p ref with
    | none => none
    | some (r, st) => (importAll P fuel st reqs).map (fun a => (r :: a.1, a.2))

end Verif
