import Verif.Model.Dict
import Verif.Model.Paths

/-
Loaders and built-in symbols: `src/hypertag/core/runtime.py`, lines 126-364.

The file system, `importlib` and translation of scripts are opaque; they may change an external world
`W` and raise exceptions `E`.
-/

namespace Verif
open Py

/-! ### The generic loader (`Loader`, base of `PyLoader`) -/

/-- What subclasses of `Loader` supply: `_find` and `_read`, runtime.py:159-169 (for `PyLoader`:
186-195). `none` is Python's `None`. -/
structure LoaderImpl (W P R L M E : Type) where
  find : P → R → W → Except E (Option L) × W
  read : L → W → Except E (Option M) × W

/-- State of a loader. `reads` is a ghost log of the invocations of `_read` with their outcomes. -/
structure LoaderState (W L M E : Type) where
  cache : Dict L (Option M)
  world : W
  reads : List (L × Except E (Option M))

/-- `Loader.load(path, referrer, runtime)`, runtime.py:144-157. The location found is returned too
(ghost). Simplification: `_read` does not re-enter the same loader (true for `PyLoader`). -/
def Loader.load {W P R L M E} [DecidableEq L] (impl : LoaderImpl W P R L M E)
    (st : LoaderState W L M E) (path : P) (ref : R) :
    (Option L × Except E (Option M)) × LoaderState W L M E :=
  match impl.find path ref st.world with
  | (.error e, w) => ((none, .error e), { st with world := w })
  | (.ok none, w) => ((none, .ok none), { st with world := w })
  | (.ok (some loc), w) =>
    match st.cache.get? loc with
    | some m => ((some loc, .ok m), { st with world := w })
    | none =>
      match impl.read loc w with
      | (.error e, w') =>
        ((some loc, .error e), { st with world := w', reads := st.reads ++ [(loc, .error e)] })
      | (.ok m, w') =>
        ((some loc, .ok m),
          { cache := st.cache.set loc m, world := w', reads := st.reads ++ [(loc, .ok m)] })

/-- A history of requests, with the locations and outcomes of each. -/
def Loader.run {W P R L M E} [DecidableEq L] (impl : LoaderImpl W P R L M E)
    (st : LoaderState W L M E) :
    List (P × R) → List (Option L × Except E (Option M)) × LoaderState W L M E
  | [] => ([], st)
  | (p, r) :: reqs =>
    let s := Loader.load impl st p r
    let rest := Loader.run impl s.2 reqs
    (s.1 :: rest.1, rest.2)

/-! ### `Runtime.import_module` -/

/-- Outcome of `import_module`: an exception of a loader, or `ModuleNotFoundEx`. -/
inductive ImportErr (E : Type) where
  | loader (e : E)
  | notFound
  deriving DecidableEq, Repr

/-- `Runtime.import_module(path, referrer, ast_node)`, runtime.py:343-352; each loader is given by
the effect of its `load` for these arguments. (`if module` is true for every `Module` object: the
class defines neither `__bool__` nor `__len__`.) -/
def importModule {W M E : Type} : List (W → Except E (Option M) × W) → W → Except (ImportErr E) M × W
  | [], w => (.error .notFound, w)
  | load :: loaders, w =>
    match load w with
    | (.error e, w') => (.error (.loader e), w')
    | (.ok (some m), w') => (.ok m, w')
    | (.ok none, w') => importModule loaders w'

/-! ### `Runtime.import_builtins` and `Runtime.translate` -/

/-- Heap of dictionary objects; references are positions. -/
abbrev DictHeap (K V : Type) := List (Dict K V)

/-- State of a `Runtime`: the heap and the attribute `_builtins`. -/
structure RuntimeState (K V : Type) where
  heap : DictHeap K V
  builtins : Option Nat

/-- The loop of `import_builtins`, runtime.py:337-339: `mods` are the symbols of the modules listed
in `BUILTINS`, or the exception that importing one of them raises; `ref` is the object
`self._builtins`. -/
def fillBuiltins {K V E} [DecidableEq K] (ref : Nat) :
    List (Except E (List (K × V))) → DictHeap K V → Except E Unit × DictHeap K V
  | [], h => (.ok (), h)
  | .error e :: _, h => (.error e, h)
  | .ok syms :: mods, h => fillBuiltins ref mods (h.modify ref (fun d => d.update syms))

/-- `Runtime.import_builtins()`, runtime.py:330-341: returns a reference to a new dictionary object.
Simplification: importing the built-in modules does not itself translate scripts. -/
def importBuiltins {K V E} [DecidableEq K] (mods : List (Except E (List (K × V))))
    (st : RuntimeState K V) : Except E Nat × RuntimeState K V :=
  let copy (ref : Nat) (h : DictHeap K V) : Nat × DictHeap K V := (h.length, h ++ [h.getD ref []])
  match st.builtins with
  | some ref =>
    let c := copy ref st.heap
    (.ok c.1, { st with heap := c.2 })
  | none =>
    let ref := st.heap.length
    match fillBuiltins ref mods (st.heap ++ [[]]) with
    | (.error e, h) => (.error e, { heap := h, builtins := some ref })
    | (.ok (), h) =>
      let c := copy ref h
      (.ok c.1, { heap := c.2, builtins := some ref })

/-- `Runtime.translate`, runtime.py:354-364, as far as built-ins are concerned: `file` and `package`
are the two entries added by it; `mutate` is whatever the translation then does to the dictionary it
was given. The result is the content of that dictionary at the start of the translation. -/
def translateWith {K V E} [DecidableEq K] (mods : List (Except E (List (K × V))))
    (st : RuntimeState K V) (file package : K × V) (mutate : Dict K V → Dict K V) :
    Except E (Dict K V) × RuntimeState K V :=
  match importBuiltins mods st with
  | (.error e, st') => (.error e, st')
  | (.ok ref, st') =>
    let h := st'.heap.modify ref (fun d => (d.set file.1 file.2).set package.1 package.2)
    (.ok (h.getD ref []), { st' with heap := h.modify ref mutate })

/-- A translation request, with the outcomes that importing the built-in modules would have at that
moment. -/
structure Job (K V E : Type) where
  mods : List (Except E (List (K × V)))
  file : K × V
  package : K × V
  mutate : Dict K V → Dict K V

/-- A history of translations. -/
def translateRun {K V E} [DecidableEq K] (st : RuntimeState K V) :
    List (Job K V E) → List (Except E (Dict K V)) × RuntimeState K V
  | [] => ([], st)
  | j :: js =>
    let r := translateWith j.mods st j.file j.package j.mutate
    let rs := translateRun r.2 js
    (r.1 :: rs.1, rs.2)

/-! ### `HyLoader` -/

/-- Attributes of a referrer module that `HyLoader` uses: the folder of its file (`ref_root`;
`none` without a file or if the folder is the empty string, which is false too) and its package. -/
structure Referrer where
  root : Option Str
  package : Option Str

/-- The environment of `HyLoader.load`. `pkgDir` is `importlib.import_module(package_name)` followed
by taking its folder, runtime.py:251-254; it may raise. -/
structure HyEnv (E : Type) where
  sep : Char
  ext : Str
  cwd : Str
  exist : Str → Bool
  resolve : Option (Str → Option Str)
  pkgDir : Str → Except E Str

/-- Exceptions of `HyLoader.load`. -/
inductive HyErr (E : Type) where
  | path (e : PathErr)
  | imp (e : E)
  deriving DecidableEq, Repr

/-- What `HyLoader.load` decides to do: return a cached module, return `None`, or read and translate
the file at a location, with the given package path. -/
inductive HyChoice where
  | cached (loc : Str)
  | none
  | read (loc : Str) (pythonPath : Option Str)
  deriving DecidableEq, Repr

/-- `path.rsplit('.', 1)[1]` for a path with a dot. -/
def rsplitTail (sep : Char) (s : Str) : Str := s.drop ((rsplitHead sep s).length + 1)

/-- `_make_absolute`, runtime.py:171-174. -/
def makeAbsolute (path : Str) (ref : Referrer) : Except PathErr (Option Str) :=
  if path.take 1 ≠ ['.'] then .ok (some path) else joinPath ref.package path '.' none

/-- Step 4, runtime.py:270-276: the referrer's folder; then line 278. -/
def hyStep4 {E} (env : HyEnv E) (path : Str) (ref : Referrer) : Except (HyErr E) HyChoice :=
  match ref.root with
  | none => .ok .none
  | some root =>
    match joinPath (some root) ('.' :: path) env.sep (some env.ext) with
    | .error e => .error (.path e)
    | .ok none => .ok .none
    | .ok (some loc) =>
      match makeAbsolute ('.' :: path) ref with
      | .error e => .error (.path e)
      | .ok py => if env.exist loc then .ok (.read loc py) else .ok .none

/-- Step 3, runtime.py:263-268: the process' current folder. -/
def hyStep3 {E} (env : HyEnv E) (cache : List Str) (path : Str) (ref : Referrer) :
    Except (HyErr E) HyChoice :=
  match joinPath (some env.cwd) ('.' :: path) env.sep (some env.ext) with
  | .error e => .error (.path e)
  | .ok none => hyStep4 env path ref
  | .ok (some loc) =>
    if loc ∈ cache then .ok (.cached loc)
    else if env.exist loc then .ok (.read loc none)
    else hyStep4 env path ref

/-- Step 2, runtime.py:249-261: Python's import mechanism. -/
def hyStep2 {E} (env : HyEnv E) (cache : List Str) (path : Str) (ref : Referrer) :
    Except (HyErr E) HyChoice :=
  if contains path '.' then
    match env.pkgDir (rsplitHead '.' path) with
    | .error e => .error (.imp e)
    | .ok dir =>
      let loc := dir ++ [env.sep] ++ rsplitTail '.' path ++ env.ext
      if env.exist loc then .ok (.read loc (some (dir ++ ['.'] ++ rsplitTail '.' path)))
      else hyStep3 env cache path ref
  else hyStep3 env cache path ref

/-- Step 1, runtime.py:242-247: the user-supplied function. -/
def hyStep1 {E} (env : HyEnv E) (cache : List Str) (path : Str) (ref : Referrer) :
    Except (HyErr E) HyChoice :=
  match env.resolve with
  | none => hyStep2 env cache path ref
  | some f =>
    match f path with
    | none => hyStep2 env cache path ref
    | some loc =>
      if loc ∈ cache then .ok (.cached loc)
      -- `if location and ...`: an empty location counts as none
      else if loc ≠ [] ∧ env.exist loc = true then .ok (.read loc none)
      else hyStep2 env cache path ref

/-- `HyLoader.load(path, referrer, runtime)`, runtime.py:227-284, up to reading the file. `cache` is
the list of cached locations. -/
def hyLocate {E} (env : HyEnv E) (cache : List Str) (path : Str) (ref : Referrer) :
    Except (HyErr E) HyChoice :=
  if path.take 1 = ['.'] then
    match ref.root with
    | none => .ok .none
    | some root =>
      match joinPath (some root) path env.sep (some env.ext) with
      | .error e => .error (.path e)
      | .ok none => .ok .none
      | .ok (some loc) =>
        match makeAbsolute path ref with
        | .error e => .error (.path e)
        | .ok py => if env.exist loc then .ok (.read loc py) else .ok .none
  else hyStep1 env cache path ref

/-- A history of `HyLoader.load` requests: the locations that are read (and translated), in order.
Simplification: translation of the loaded scripts makes no further requests and succeeds. -/
def hyRun {E} (env : HyEnv E) : List Str → List (Str × Referrer) → List Str
  | _, [] => []
  | cache, (p, r) :: reqs =>
    match hyLocate env cache p r with
    | .ok (.read loc _) => loc :: hyRun env (loc :: cache) reqs
    | _ => hyRun env cache reqs

end Verif
