import Verif.Lemmas.PolicyAnalyse
import Verif.Props.Pages
import Verif.Props.Markup

/-! Properties C81 and C82: whatever a script does, what it makes is a tree, and its markup is balanced. -/

namespace Verif
open Py Spec

section
variable {P X W : Type}

/-- The definitions that may be expanded: those of the document itself, and those of other documents, which conform to
the policy. -/
def KnownDefs (L : Policy P W) (doc : Document P) (Γ : DefId → DefInfo P) : Prop :=
  ∀ id, (id, Γ id) ∈ Stmt.defsAll doc.children ∨ L.Definition 0 (Γ id)

/-- Values that come from outside: global variables and tags, imported symbols, and the symbols of the context. -/
structure Inputs {I : Type} (L : Policy P W) (src : Source P I) (globals : Dict Str (Val P)) : Prop where
  globals : ∀ a ∈ globals, L.Value 0 a.2
  modules : ∀ p d st, src.modules p = .ok (d, st) → ∀ a ∈ d, L.Value 0 a.2
  context : ∀ a ∈ src.context, L.Value 0 a.2

theorem script_fair {I : Type} {L : Policy P W} (hL : L.Laws) {ops : PyOps P X W} (hops : L.Honest ops) {src : Source P I}
    {globals : Dict Str (Val P)} (hin : Inputs L src globals) {ss : List (Stmt P)} (hss : L.Stmts 0 ss) {first : Slot} {doc : Document P}
    (hdoc : analyseDocument src first globals ss = .ok doc) {Γ : DefId → DefInfo P} (hΓ : KnownDefs L doc Γ) (fuel : Nat) :
    L.Fair (envAt ops Γ fuel) ∧ L.Doc 0 doc := by
  have hd := analyseDocument_policy hin.modules hin.context hin.globals hss hdoc
  refine ⟨fair_envAt hL ops hops Γ (fun id => ?_) fuel, hd⟩
  rcases hΓ id with h | h
  · exact defsAll_policy _ hd.children _ h
  · exact h

/-! ### C81: documents are trees -/

/-- C81. Whatever a script does (loops, hypertags that call themselves, embedding the same nodes repeatedly, hypertags
called by external functions, exceptions caught by `try` blocks..), the document it is translated to is a finite tree:
no node is inside of itself, at any level. The same holds for all nodes accessible through the values it exports. -/
theorem C81_tree {I : Type} (obj : Nat → P → Prop) (world : Nat → W → Prop) (ho : ∀ {n m p}, n ≤ m → obj n p → obj m p)
    (hw : ∀ {n m w}, n ≤ m → world n w → world m w) (ops : PyOps P X W) (hops : (Policy.free obj world).Honest ops)
    (src : Source P I) (globals : Dict Str (Val P)) (hin : Inputs (Policy.free obj world) src globals)
    (ss : List (Stmt P)) (hss : (Policy.free obj world).Stmts 0 ss) (first : Slot) (doc : Document P)
    (hdoc : analyseDocument src first globals ss = .ok doc) (Γ : DefId → DefInfo P) (hΓ : KnownDefs (Policy.free obj world) doc Γ)
    (fuel : Nat) (σ : StateId) (M : Machine P W) (hM : (Policy.free obj world).Store M)
    (tagOf : P → TagObj) (strOf : Val P → Str) (root : Ref) (syms : Dict Str (Val P)) (M' : Machine P W)
    (h : translDocument (envAt ops Γ fuel) σ doc M = (.ok (root, syms), M')) :
    (∃ node, Unfolds tagOf strOf M'.mem.nodes root node ∧ ∀ node', Unfolds tagOf strOf M'.mem.nodes root node' → node' = node) ∧
    ∀ a ∈ syms, ∀ ns, a.2 = .dom ns → ∃ nodes, UnfoldsAll tagOf strOf M'.mem.nodes ns nodes := by
  obtain ⟨F, hd⟩ := script_fair (free_laws @ho @hw) hops hin hss hdoc hΓ fuel
  obtain ⟨h1, -, h3⟩ := F.document σ _ doc hd M hM (Nat.zero_le _)
  rw [h] at h1 h3
  obtain ⟨hr, hs⟩ := h3 _ rfl
  obtain ⟨node, hn⟩ := memory_unfolds tagOf strOf h1.mem root hr
  refine ⟨⟨node, hn, fun node' hn' => unfolds_unique hn' hn⟩, ?_⟩
  intro a ha ns e
  have := hs a ha
  rw [e] at this
  cases this with
  | dom hns => exact unfoldsAll_exists (fun r hr => memory_unfolds tagOf strOf h1.mem r (hns r hr))

/-! ### C82: their markup is balanced -/

/-- C82. Whatever a script does, provided that it has no unescaped lines and calls no hypertags in expressions: if it is
translated and rendered to some text, then this text is well-formed HTML, whatever the values of variables are. Each element
that is opened is closed, elements are properly nested, their names are among those of the available tags, and the names
of attributes are proper. -/
theorem C82_balanced_partial {I : Type} (names : Str → Prop) (hnames : ∀ n, names n → ValidName n) (obj : Nat → P → Prop)
    (world : Nat → W → Prop) (ho : ∀ {n m p}, n ≤ m → obj n p → obj m p) (hw : ∀ {n m w}, n ≤ m → world n w → world m w)
    (tagOf : P → TagObj) (ops : PyOps P X W) (hops : (Policy.markup tagOf names obj world).Honest ops)
    (src : Source P I) (globals : Dict Str (Val P)) (hin : Inputs (Policy.markup tagOf names obj world) src globals)
    (ss : List (Stmt P)) (hss : (Policy.markup tagOf names obj world).Stmts 0 ss) (first : Slot) (doc : Document P)
    (hdoc : analyseDocument src first globals ss = .ok doc) (Γ : DefId → DefInfo P)
    (hΓ : KnownDefs (Policy.markup tagOf names obj world) doc Γ) (fuel : Nat) (σ : StateId)
    (M : Machine P W) (hM : (Policy.markup tagOf names obj world).Store M) (strOf : Val P → Str) (root : Ref)
    (syms : Dict Str (Val P)) (M' : Machine P W) (h : translDocument (envAt ops Γ fuel) σ doc M = (.ok (root, syms), M')) (ext) :
    ∃ node, Unfolds tagOf strOf M'.mem.nodes root node ∧
      ∀ out, renderNode ext node = .ok out → ∃ ev, tokenize out = some ev ∧ Balanced names ev := by
  obtain ⟨F, hd⟩ := script_fair (markup_laws @ho @hw) hops hin hss hdoc hΓ fuel
  obtain ⟨h1, -, h3⟩ := F.document σ _ doc hd M hM (Nat.zero_le _)
  rw [h] at h1 h3
  obtain ⟨hr, -⟩ := h3 _ rfl
  obtain ⟨n, hn, hg⟩ := markup_tree (strOf := strOf) hnames h1.mem root hr
  exact ⟨n, hn, fun out hout => ⟨_, C06_structure_root ext _ hg.1 out hout, hg.2⟩⟩

end

/-! ### The examples -/

/-- The miniature Python conforms to both policies. -/
theorem toyHonest {L : Policy Toy.Obj Toy.World} (ho : ∀ n p, L.obj n p) (hw : ∀ n w, L.world n w) (he : ∀ s, L.text (htmlEscape s))
    (ht : ∀ k, L.tag (.tag k)) : L.Honest exPyEnv.ops := by
  have hpy : ∀ n p, L.Value n (.py p) := fun n p => .py (ho n p)
  have hret : ∀ {α : Type} {Q : Nat → α → Prop} (a : α) (m : Mem Toy.Obj Toy.World), L.Memory m → Q m.next a → L.Run Q m.next (Toy.ret (α := α) a m) :=
    fun a m hm hq => ⟨hm, Nat.le_refl _, hq⟩
  have hfail : ∀ {α : Type} {Q : Nat → α → Prop} (k : Nat) (m : Mem Toy.Obj Toy.World), L.Memory m → L.Run Q m.next (Toy.fail (α := α) k m) :=
    fun k m hm => ⟨hm, Nat.le_refl _⟩
  have hlog : ∀ {α : Type} {Q : Nat → α → Prop} (k : Nat) (a : α) (m : Mem Toy.Obj Toy.World), L.Memory m → Q m.next a →
      L.Run Q m.next (Toy.logging k (α := α) a m) :=
    fun k a m hm hq => ⟨⟨hm.nodes, hw _ _⟩, Nat.le_refl _, hq⟩
  refine ⟨?_, fun t => hpy 0 _, (fun h => by cases h), ?_⟩
  · intro n α Q c hc m hm hn
    cases hc with
    | truth =>
      rename_i p _
      cases p <;> first | exact hret _ m hm trivial | exact hfail _ m hm | exact ⟨⟨hm.nodes, hw _ _⟩, Nat.le_refl _, trivial⟩
    | str =>
      rename_i v _
      show L.Run _ _ (Toy.str v m)
      unfold Toy.str
      split <;> first | exact hret _ m hm trivial | exact hfail _ m hm
    | repr => exact hret _ m hm trivial
    | bin =>
      rename_i op a b _ _
      show L.Run _ _ (Toy.bin op a b m)
      unfold Toy.bin
      split <;> first | exact hret _ m hm (hpy _ _) | exact hfail _ m hm | skip
      split <;> first | exact hret _ m hm (hpy _ _) | exact hfail _ m hm
    | neg => exact hfail _ m hm
    | call =>
      rename_i f as kw _ _ _
      show L.Run _ _ (Toy.call f as kw m)
      unfold Toy.call
      split <;> first | exact hlog _ _ m hm (hpy _ _) | exact hfail _ m hm | exact ⟨hm, Nat.le_refl _⟩
    | getitem =>
      rename_i a b _ _
      show L.Run _ _ (Toy.getitem a b m)
      unfold Toy.getitem
      split
      · split
        · exact hret _ m hm (hpy _ _)
        · exact hfail _ m hm
      · exact hfail _ m hm
    | slice =>
      rename_i a b _ _
      show L.Run _ _ (Toy.slice a b m)
      unfold Toy.slice
      split <;> first | exact hret _ m hm (hpy _ _) | exact hfail _ m hm
    | getattr => exact hfail _ m hm
    | mkList => exact hret _ m hm (hpy _ _)
    | mkTuple => exact hret _ m hm (hpy _ _)
    | mkSet => exact hfail _ m hm
    | mkDict => exact hfail _ m hm
    | iter =>
      rename_i v _
      show L.Run _ _ (Toy.iter v m)
      unfold Toy.iter
      split
      · exact ⟨⟨hm.nodes, hw _ _⟩, Nat.le_refl _, hpy _ _⟩
      · exact hfail _ m hm
    | next =>
      rename_i v _
      show L.Run _ _ (Toy.next v m)
      unfold Toy.next
      split
      · next i =>
        have : ∀ o : Option Toy.Obj, ∀ k v, o.map Val.py = some v → L.Value k v := by
          intro o k v e
          cases o with
          | none => cases e
          | some p => cases e; exact hpy _ _
        unfold Toy.nextIter
        split
        · exact ⟨⟨hm.nodes, hw _ _⟩, Nat.le_refl _, this _ _⟩
        · exact ⟨hm, Nat.le_refl _, this _ _⟩
      · exact hfail _ m hm
    | toList =>
      rename_i v _
      show L.Run _ _ (Toy.toList v m)
      unfold Toy.toList
      split
      · refine hret _ m hm ?_
        intro v hv
        obtain ⟨p, -, rfl⟩ := List.mem_map.1 hv
        exact hpy _ _
      · exact hfail _ m hm
    | flatten => exact hret _ m hm (by simp)
    | escape h => cases h; exact ⟨hm, Nat.le_refl _, he _⟩
    | render => exact ⟨hm, Nat.le_refl _, trivial⟩
  · intro n p _ h
    cases p <;> first | exact ht _ | cases h


/-- The tree of a node, to the given depth. -/
def exUnfold (m : Mem Toy.Obj Toy.World) : Nat → Ref → Node
  | 0, r => toNode exTagOf (fun _ => []) (m.nodes r) []
  | k + 1, r => toNode exTagOf (fun _ => []) (m.nodes r) ((m.nodes r).body.map (exUnfold m k))

/-- The tree is not deeper than that. -/
def exShallow (m : Mem Toy.Obj Toy.World) : Nat → Ref → Bool
  | 0, r => (m.nodes r).body.isEmpty
  | k + 1, r => (m.nodes r).body.all (exShallow m k)

theorem exUnfold_unfolds {m : Mem Toy.Obj Toy.World} : ∀ {k : Nat} {r : Ref}, exShallow m k r = true →
    Unfolds exTagOf (fun _ => []) m.nodes r (exUnfold m k r)
  | 0, r, h => by
    have : (m.nodes r).body = [] := by simpa [exShallow] using h
    exact .mk (this ▸ .nil)
  | k + 1, r, h => by
    refine .mk ?_
    have h : ∀ q ∈ (m.nodes r).body, exShallow m k q = true := by simpa [exShallow] using h
    revert h
    generalize (m.nodes r).body = qs
    intro h
    induction qs with
    | nil => exact .nil
    | cons q qs ih => exact .cons (exUnfold_unfolds (h q (by simp))) (ih (fun p hp => h p (by simp [hp])))

/-- The first definition of a hypertag in a script. -/
def exDefinition : List (Stmt Toy.Obj) → DefInfo Toy.Obj
  | .xblock _ _ (.defn _ _ _ b a s) :: _ => ⟨b, a, s⟩
  | _ :: ss => exDefinition ss
  | [] => ⟨none, [], .pass⟩

/-- From the text of a script with at most one definition to the text of the document. -/
def exText (globals : Dict Str (Val Toy.Obj)) (src : Str) : Option Str :=
  match loadScript defaultMarks asciiUni (fun _ => none) src with
  | .ok ss =>
    match analyseDocument (I := Unit) ⟨fun _ => .error (), []⟩ 0 globals ss with
    | .ok doc =>
      match translDocument (envAt exPyEnv.ops (fun _ => exDefinition doc.children) 9) 0 doc (Toy.machine []) with
      | (.ok (root, _), M) => if exShallow M.mem 9 root then (renderNode (fun _ _ _ _ => .ok []) (exUnfold M.mem 9 root)).toOption else none
      | _ => none
    | .error _ => none
  | .error _ => none

theorem exText_spec {globals : Dict Str (Val Toy.Obj)} {src out : Str} (h : exText globals src = some out) :
    ∃ ss doc root syms M' node, loadScript defaultMarks asciiUni (fun _ => none) src = .ok ss ∧
      analyseDocument (I := Unit) ⟨fun _ => .error (), []⟩ 0 globals ss = .ok doc ∧
      translDocument (envAt exPyEnv.ops (fun _ => exDefinition doc.children) 9) 0 doc (Toy.machine []) = (.ok (root, syms), M') ∧
      Unfolds exTagOf (fun _ => []) M'.mem.nodes root node ∧ renderNode (fun _ _ _ _ => .ok []) node = .ok out := by
  unfold exText at h
  split at h
  · next ss h1 =>
    split at h
    · next doc h2 =>
      split at h
      · next root syms M h3 =>
        split at h
        · next h4 =>
          refine ⟨ss, doc, root, syms, M, _, h1, h2, h3, exUnfold_unfolds h4, ?_⟩
          cases e : renderNode (fun _ _ _ _ => .ok []) (exUnfold M.mem 9 root) with
          | ok t => rw [e] at h; cases h; rfl
          | error x => rw [e] at h; cases h
        · cases h
      · cases h
    · cases h
  · cases h

def leakScript : Str := s!!"% h @b keep\n  if keep\n    $ y = b\n  @y\n$ t = %h(\"<script>\", True)\nh False"

/-- C82 does not hold if hypertags are called in expressions. The body of such a call is not escaped (ast.py:136); the
script assigns it to a variable inside of the hypertag, whose value is still there when the hypertag is used as a tag.
Here the text `<script>` gets to the document as a tag. -/
theorem C82_not_in_general : ∃ ss doc root syms M' node out,
    loadScript defaultMarks asciiUni (fun _ => none) leakScript = .ok ss ∧
    analyseDocument (I := Unit) ⟨fun _ => .error (), []⟩ 0 [] ss = .ok doc ∧
    translDocument (envAt exPyEnv.ops (fun _ => exDefinition doc.children) 9) 0 doc (Toy.machine []) = (.ok (root, syms), M') ∧
    Unfolds exTagOf (fun _ => []) M'.mem.nodes root node ∧ renderNode (fun _ _ _ _ => .ok []) node = .ok out ∧
    ¬ ∃ ev, tokenize out = some ev ∧ Balanced (fun _ => True) ev := by
  obtain ⟨ss, doc, root, syms, M', node, h1, h2, h3, h4, h5⟩ :=
    exText_spec (globals := []) (src := leakScript) (out := s!!"<script>") (by decide +kernel)
  refine ⟨ss, doc, root, syms, M', node, _, h1, h2, h3, h4, h5, ?_⟩
  rintro ⟨ev, h, hb⟩
  have : tokenize (s!!"<script>") = some [.start (s!!"script") []] := by decide +kernel
  rw [this] at h
  cases h
  generalize he : [Event.start (s!!"script") []] = ev at hb
  cases hb with
  | nil => cases he
  | chr => cases he
  | void => cases he
  | element =>
    have := congrArg List.length he
    simp at this

/-- `for`, a hypertag with a body, an attribute and a text with a hostile value. -/
def loopScript : Str := s!!"% h @b\n  p id=x | {x}\n  @b\nfor i in s\n  h | {i}"

def loopGlobals : Dict Str (Val Toy.Obj) :=
  [(s!!"%p", .py (.tag 0)), (s!!"$x", .str (s!!"</p>\"")), (s!!"$s", .py (.seq [.num 1, .num 2]))]

example : exText loopGlobals loopScript =
    some (s!!"<p id='&lt;/p&gt;\"'>&lt;/p&gt;\"</p>\n1\n<p id='&lt;/p&gt;\"'>&lt;/p&gt;\"</p>\n2") := by decide +kernel

/-- What the scripts of the examples may use. -/
def exPolicy : Policy Toy.Obj Toy.World := .markup exTagOf (fun n => n = (s!!"p") ∨ n = (s!!"img")) (fun _ _ => True) (fun _ _ => True)

theorem exPolicy_honest : exPolicy.Honest exPyEnv.ops :=
  toyHonest (fun _ _ => trivial) (fun _ _ => trivial) C01_escape_safe (fun k => by
    match k with
    | 0 => exact .inr ⟨_, _, _, rfl, .inl rfl⟩
    | 1 => exact .inr ⟨_, _, _, rfl, .inr rfl⟩
    | _ + 2 => exact .inl rfl)

/-- The script of the example, after parsing. -/
def loopStmts : List (Stmt Toy.Obj) :=
  [.xblock [] none (.defn 2 (s!!"h") none (some ⟨s!!"b", none, none⟩) [] (.body [.indent ' ',
      .xblock [] none (.struct [.tag (s!!"p") none [] [(s!!"id", .root none (.factor (.varUse (s!!"x") none) [] none))]]
        (.text 10 [.line (.normal [.static [' '], .root none (.varUse (s!!"x") none)])])),
      .xblock [] none (.embed (.root none (.varUse (s!!"b") none))), .dedent ' '])),
    .xblock [] none (.forBlock (.many [.var (s!!"i") false none none]) (.root none (.varUse (s!!"s") none)) [.body [.indent ' ',
      .xblock [] none (.struct [.tag (s!!"h") none [] []] (.text 3 [.line (.normal [.static [' '], .root none (.varUse (s!!"i") none)])])),
      .dedent ' ']])]

/-- The properties apply to the script of the example, whatever the values of `x` and `s` are. -/
example (x : Str) (l : List Toy.Obj) (src : Source Toy.Obj Unit) (hsrc : src = ⟨fun _ => .error (), []⟩) :
    Inputs exPolicy src [(s!!"%p", .py (.tag 0)), (s!!"$x", .str x), (s!!"$s", .py (.seq l))] ∧
    exPolicy.Store (Toy.machine []) ∧ exPolicy.Stmts 0 loopStmts := by
  subst hsrc
  refine ⟨⟨?_, ?_, ?_⟩, ⟨⟨?_, trivial⟩, ?_, ?_⟩, ?_⟩
  · intro a ha
    simp only [List.mem_cons, List.not_mem_nil, or_false] at ha
    rcases ha with rfl | rfl | rfl
    · exact .py trivial
    · exact .str _
    · exact .py trivial
  · intro p d st h; cases h
  · simp
  · intro r hr; cases hr
  · intro σ sl v h; simp [Toy.machine] at h
  · intro σ c hc; simp [Toy.machine] at hc; subst hc; decide
  · have e : exPolicy.text [] := Verif.SafeText.nil
    have k1 : exPolicy.key (s!!"id") := by unfold exPolicy Policy.markup ValidName; decide
    have k2 : exPolicy.key (s!!"b") := by unfold exPolicy Policy.markup ValidName; decide
    have t : isSpace ' ' = true := by decide
    simp [loopStmts, Policy.Stmts, Policy.Stmt, Policy.Tag, Policy.Item, Policy.Line, Expr.tagsIf, Expr.tagsIfAll, Expr.tagsIfOpt,
      Tail.tagsIfAll, e, k1, k2, t]

end Verif
