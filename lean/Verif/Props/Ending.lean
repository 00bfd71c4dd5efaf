import Verif.Lemmas.OrderlyAnalyse
import Verif.Props.Components
import Verif.Props.Limits
import Verif.Props.Made
import Verif.Props.Scripts

/-
C118: scripts without `while` loops end, unless hypertags are used as functions. In particular no hypertag can
expand itself, directly or by means of others.
-/

namespace Verif
open Py Spec

section
variable {P X W I : Type} {O : Outside P W} {ops : PyOps P X W}

/-- The values and the memory with which a script begins. -/
structure Spec.Outside.Start (O : Outside P W) (src : Source P I) (globals : Dict Str (Val P)) (σ : StateId) (m : Machine P W) : Prop where
  memory : O.Memory m.mem
  modules : ∀ p d st, src.modules p = .ok (d, st) → ∀ a ∈ d, O.Plain m.mem.next a.2
  context : ∀ a ∈ src.context, O.Plain m.mem.next a.2
  globals : ∀ a ∈ globals, O.Plain m.mem.next a.2
  state : ∀ sl v, (m.states σ).values sl = some v → O.Plain m.mem.next v

theorem Spec.Outside.plain_not_hyper {n : Nat} (h : HVal) : ¬ O.Plain n (.hyper h) := fun h => nomatch h

/-- An analysed tree whose `for` blocks and definitions are as the parser made them. -/
theorem C118_document (C : O.Calm ops) {M : Marks} {U : Uni} {ss : List (Stmt P)} (made : Stmt.MadeDocument M U ss) (straight : Stmt.straightAll ss)
    {src : Source P I} {first : Slot} {globals : Dict Str (Val P)} {doc : Document P} (hd : analyseDocument src first globals ss = .ok doc)
    (Γ : DefId → DefInfo P) (hΓ : ∀ d ∈ Stmt.defsAll doc.children, Γ d.1 = d.2) (σ : StateId) (m : Machine P W) (hm : O.Start src globals σ m) :
    ∃ r, Spec.Outcome (fun n => translDocument (envAt ops Γ n) σ doc) m r := by
  have key : Post (fun doc : Document P => ∃ c, (∀ a ∈ doc.slotsIn, O.Plain m.mem.next a.2) ∧ Sound (O.Plain m.mem.next) (Stmt.slottedAll doc.children)
      (fun G b => Stmt.orderlyAll (O.Plain m.mem.next) G b doc.children) { next := first } c) (analyseDocument src first globals ss) := by
    unfold analyseDocument
    refine (valueSlots_sound (fun _ => Spec.Outside.plain_not_hyper _) hm.modules hm.context globals hm.globals _).bind (fun r h1 =>
      (analyseAll_sound (fun _ => Spec.Outside.plain_not_hyper _) hm.modules hm.context ss r.2 made.2 straight).bind (fun r2 h2 => .pure ⟨r2.2, fun a ha => ?_, ?_⟩))
    · obtain ⟨b, hb, rfl⟩ := List.mem_map.1 ha
      exact h1.2 b hb
    · exact (h1.1.seq h2).imp rfl (fun _ _ h => h.2)
  obtain ⟨c, hin, hs⟩ := key doc hd
  let G : DefId → Slot → Prop := fun id k => ∃ d, (id, k, d) ∈ Stmt.slottedAll doc.children
  obtain ⟨_, h2, h3⟩ := hs.ok G ⟨fun _ _ h _ _ => h, fun x hx => ⟨x.2.2, hx⟩⟩ ⟨fun _ h => (nomatch h), fun _ h => (nomatch h)⟩
  obtain ⟨N, r, m', e1, e2, _⟩ := Halts.translDocument (σ := σ) (b := c.next) (G := G) (n0 := m.mem.next) C Γ (doc := doc)
    (fun id k ⟨d, hd⟩ => by
      have := hΓ _ (Stmt.slottedAll_defs _ _ hd)
      rw [this]
      exact h2 _ hd) hin (h3 _ (Nat.le_refl _)) m ⟨hm.memory, fun sl v h => .inl (hm.state sl v h)⟩ (Nat.le_refl _)
  exact ⟨(r, m'), N, e1 N (Nat.le_refl _), e2⟩

/-- A script in which there are no `while` loops and hypertags are used as tags only ends, with a document or with an exception: also when Python
functions are called from it, as long as they return and iterators that they give are finite. -/
theorem C118_script (C : O.Calm ops) {M : Marks} {U : Uni} [MarksApart M U] {names : Str → Option Char} {script : Str} {ss : List (Stmt P)}
    (hl : loadScript M U names script = .ok ss) (straight : Stmt.straightAll ss)
    {src : Source P I} {first : Slot} {globals : Dict Str (Val P)} {doc : Document P} (hd : analyseDocument src first globals ss = .ok doc)
    (σ : StateId) (m : Machine P W) (hm : O.Start src globals σ m) :
    ∃ r, Spec.Outcome (fun n => translDocument (envAt ops doc.table n) σ doc) m r :=
  C118_document C (C83_wellmade hl) straight hd doc.table (C88_table M U names script ss hl src first globals doc hd) σ m hm

end

/-! ### An example -/

namespace EndingEx
open Toy

/-- Objects of the miniature Python contain neither nodes nor hypertags. -/
def outside : Outside Obj World where
  obj := fun _ _ => True
  world := fun _ _ => True
  left := fun w v => match v with
    | .py (.iter i) => (w.iters[i]?).map List.length
    | _ => none

theorem later_refl (w : World) : outside.Later w w := fun it k h => ⟨k, Nat.le_refl _, h⟩

theorem later_log (w : World) (l : List Nat) : outside.Later w { w with log := l } := fun it k h => ⟨k, Nat.le_refl _, h⟩

theorem memory_world {m : Mem Obj World} (h : outside.Memory m) (w : World) : outside.Memory { m with world := w } := ⟨h.nodes, trivial⟩

theorem done_ret {α : Type} {Q : Nat → α → Prop} {m : Mem Obj World} (hm : outside.Memory m) {a : α} (h : Q m.next a) :
    outside.Done Q m ((ret a : PyT α) m) := ⟨hm, Nat.le_refl _, later_refl _, h⟩

theorem done_fail {α : Type} {Q : Nat → α → Prop} {m : Mem Obj World} (hm : outside.Memory m) (k : Nat) :
    outside.Done Q m ((fail k : PyT α) m) := ⟨hm, Nat.le_refl _, later_refl _⟩

theorem done_logging {α : Type} {Q : Nat → α → Prop} {m : Mem Obj World} (hm : outside.Memory m) (k : Nat) {a : α} (h : Q m.next a) :
    outside.Done Q m ((logging k a : PyT α) m) := ⟨memory_world hm _, Nat.le_refl _, later_log _ _, h⟩

theorem later_append (w : World) (l : List Obj) : outside.Later w { w with iters := w.iters ++ [l] } := by
  intro it k h
  refine ⟨k, Nat.le_refl _, ?_⟩
  match it with
  | .py (.iter i) =>
    simp only [outside, Option.map_eq_some_iff] at h ⊢
    obtain ⟨a, ha, rfl⟩ := h
    refine ⟨a, ?_, rfl⟩
    rw [List.getElem?_append_left (List.getElem?_eq_some_iff.1 ha).1]
    exact ha

theorem later_set (w : World) (i : Nat) (x : Obj) (xs : List Obj) (h0 : w.iters[i]? = some (x :: xs)) :
    outside.Later w { w with iters := w.iters.set i xs } := by
  intro it k h
  match it with
  | .py (.iter j) =>
    simp only [outside, Option.map_eq_some_iff] at h ⊢
    obtain ⟨a, ha, rfl⟩ := h
    by_cases hij : i = j
    · subst hij
      rw [h0] at ha
      cases ha
      exact ⟨xs.length, by simp, xs, by simp [(List.getElem?_eq_some_iff.1 h0).1], rfl⟩
    · exact ⟨a.length, Nat.le_refl _, a, by rw [List.getElem?_set_ne hij]; exact ha, rfl⟩

theorem calm : outside.Calm ops where
  run := by
    intro n α Q c h m hm hn
    cases h with
    | truth h =>
      simp only [ops, truth]
      split
      any_goals first | exact done_ret hm trivial | exact done_fail hm _
      exact ⟨memory_world hm _, Nat.le_refl _, later_log _ _, trivial⟩
    | str h =>
      simp only [ops, str]
      split
      all_goals first | exact done_ret hm trivial | exact done_fail hm _
    | repr h => exact done_ret hm trivial
    | bin h1 h2 =>
      simp only [ops, bin]
      split
      any_goals first | exact done_ret hm (.py trivial) | exact done_fail hm _
      split
      all_goals first | exact done_ret hm (.py trivial) | exact done_fail hm _
    | neg h => exact done_fail hm _
    | call h1 h2 h3 =>
      simp only [ops, call]
      split
      any_goals first | exact done_logging hm _ (.py trivial) | exact done_fail hm _
      exact ⟨hm, Nat.le_refl _, later_refl _⟩
    | getitem h1 h2 =>
      simp only [ops, getitem]
      split
      · split
        · exact done_ret hm (.py trivial)
        · exact done_fail hm _
      · exact done_fail hm _
    | slice h1 h2 =>
      simp only [ops, slice]
      split
      all_goals first | exact done_ret hm (.py trivial) | exact done_fail hm _
    | getattr h => exact done_fail hm _
    | mkList h => exact done_ret hm (.py trivial)
    | mkTuple h => exact done_ret hm (.py trivial)
    | mkSet h => exact done_fail hm _
    | mkDict h => exact done_fail hm _
    | iter h =>
      simp only [ops, iter]
      split
      · exact ⟨memory_world hm _, Nat.le_refl _, later_append _ _, .py trivial⟩
      · exact done_fail hm _
    | next h =>
      simp only [ops, next]
      split
      · rename_i i
        simp only [nextIter]
        split
        · rename_i x xs hx
          exact ⟨memory_world hm _, Nat.le_refl _, later_set _ _ _ _ hx, by rintro v ⟨⟩; exact .py trivial⟩
        · exact ⟨hm, Nat.le_refl _, later_refl _, by rintro v ⟨⟩⟩
      · exact done_fail hm _
    | toList h =>
      simp only [ops, toList]
      split
      · refine done_ret hm (fun v hv => ?_)
        obtain ⟨p, _, rfl⟩ := List.mem_map.1 hv
        exact .py trivial
      · exact done_fail hm _
    | flatten h => exact done_ret hm (by simp)
    | escape h =>
      simp only [ops, Option.some.injEq] at h
      subst h
      exact done_ret hm trivial
  iter := by
    intro v m it m' hm hv h
    simp only [ops, iter] at h
    split at h
    · cases h
      exact ⟨_, by simp only [outside, List.getElem?_concat_length, Option.map_some]; rfl⟩
    · cases h
  next := by
    intro it m v m' k hm hv h hk
    simp only [ops, next] at h
    split at h
    · rename_i i
      simp only [nextIter] at h
      split at h
      · rename_i x xs hx
        cases h
        simp only [outside, hx, Option.map_some, Option.some.injEq] at hk
        subst hk
        exact ⟨xs.length, by simp, by simp [outside, (List.getElem?_eq_some_iff.1 hx).1]⟩
      · cases h
    · cases h
  number := fun t => .py trivial
  obj_mono := fun _ _ => trivial
  world_mono := fun _ _ => trivial

/-- The script loads and is analysed, there are no `while` loops in it and hypertags are used as tags only. -/
def checked (globals : Dict Str (Val Obj)) (src : Str) : Bool :=
  match loadScript defaultMarks asciiUni (fun _ => none) src with
  | .ok ss =>
    match analyseDocument (I := Unit) ⟨fun _ => .error (), []⟩ 0 globals ss with
    | .ok _ => decide (Stmt.straightAll ss)
    | .error _ => false
  | .error _ => false

/-- Such a script ends, whatever the values of the variables are as long as they are not hypertags. -/
theorem ends {globals : Dict Str (Val Obj)} {src : Str} (hg : ∀ a ∈ globals, outside.Plain 0 a.2) (h : checked globals src = true) :
    ∃ ss doc r, loadScript defaultMarks asciiUni (fun _ => none) src = .ok ss ∧
      analyseDocument (I := Unit) ⟨fun _ => .error (), []⟩ 0 globals ss = .ok doc ∧
      Spec.Outcome (fun n => translDocument (envAt ops doc.table n) 0 doc) (machine []) r := by
  unfold checked at h
  split at h
  · rename_i ss hl
    split at h
    · rename_i doc hd
      have := defaultMarks_apart
      obtain ⟨r, hr⟩ := C118_script calm hl (of_decide_eq_true h) hd 0 (machine [])
        ⟨⟨fun r hr => (nomatch hr), trivial⟩, fun _ _ _ h => (nomatch h), fun _ h => (nomatch h), hg, fun _ _ h => (by simp [machine] at h)⟩
      exact ⟨ss, doc, r, hl, hd, hr⟩
    · cases h
  · cases h

-- a definition that uses another one, in a loop over a sequence, with a function called in each round
example : ∃ ss doc r, loadScript defaultMarks asciiUni (fun _ => none) (s!!"% item x\n  | {x}\n% list @body xs\n  for x in xs\n    item {f(x)}\n    @body\nlist {xs}\n  | more") = .ok ss ∧
      analyseDocument (I := Unit) ⟨fun _ => .error (), []⟩ 0 [((s!!"$xs"), .py (.seq [.num 1, .num 2])), ((s!!"$f"), .py (.fn 7))] ss = .ok doc ∧
      Spec.Outcome (fun n => translDocument (envAt ops doc.table n) 0 doc) (machine []) r :=
  ends (by simp only [List.mem_cons, List.not_mem_nil, or_false, forall_eq_or_imp, forall_eq]; exact ⟨.py trivial, .py trivial⟩) (by decide +kernel)

-- scripts that are not of this kind: a `while` loop, a hypertag that is handed over as a value
example : checked [] (s!!"while True\n  | x") = false := by decide +kernel
example : checked [] (s!!"% h f\n  | {f}\nh %h") = false := by decide +kernel
-- a hypertag cannot mention itself: there is no document then
example : checked [] (s!!"% h\n  h") = false := by decide +kernel
example : checked [] (s!!"% h\n  | x\n% h\n  h\nh") = true := by decide +kernel

/-- `% H f` with the body `| {f(None, f)}`; the slot of `f` is 0. -/
def handing : DefId → DefInfo Obj := fun _ =>
  { bodyAttr := none, attrs := [{ name := (s!!"f"), default := none, slot := some 0 }],
    body := .line (.markup [.factor (v 0) [.call [.none, .none] [.noneLit, v 0]] .none]) }

/-- What `%H` is when it is handed over. -/
def itself : V := .embedded (.defn 0) 0

theorem handing_step (E : Env Obj Nat World) (m : M) (h : ∀ m, (E.call ⟨.defn 0, 0, .none, [itself], []⟩ m).1 = .timeout) :
    (expandHyper E handing (.defn 0) (.dom []) [itself] [] 0 m).1 = .timeout := by
  have h3 : appendAttrs E 0 (handing 0) (.dom []) [itself] [] m = (.ok [((s!!"f"), itself)], m.updState 0 (fun s =>
    { s with values := fun t => if t = 0 then some itself else s.values t })) := rfl
  simp only [expandHyper, expandDef]
  rw [Comp.bind_ok h3]
  generalize hm1 : m.updState 0 (fun s => { s with values := fun t => if t = 0 then some itself else s.values t }) = m1
  have h1 : eval E 0 (.factor (v 0) [.call [.none, .none] [.noneLit, v 0]] .none) m1 =
      qualStep E .none ((E.call ⟨.defn 0, 0, .none, [itself], []⟩ >>= applyTails E 0 []) m1) := by subst hm1; rfl
  have h4 : (eval E 0 (.factor (v 0) [.call [.none, .none] [.noneLit, v 0]] .none) m1).1 = .timeout := by
    rw [h1, Comp.bind_run]
    have := h m1
    revert this
    generalize E.call _ m1 = r
    rintro e
    obtain ⟨r, m'⟩ := r
    cases e
    rfl
  have h2 : (transl E 0 (handing 0).body m1).1 = .timeout := by
    simp only [handing, transl, renderLine, evalStrs]
    generalize hr : eval E 0 _ m1 = r at h4
    obtain ⟨r, m'⟩ := r
    cases h4
    rw [Comp.bind_timeout (M' := m')]
    rw [Comp.bind_timeout hr]
  generalize hr : transl E 0 (handing 0).body m1 = r at h2
  obtain ⟨r, m'⟩ := r
  cases h2
  rw [Comp.bind_timeout hr]

/-- A hypertag that is handed over to itself, and then calls itself, has no outcome. -/
theorem handing_endless (n : Nat) (m : M) : ((envAt ops handing n).expand (.defn 0) (.dom []) [itself] [] 0 m).1 = .timeout ∧
    ∀ m, ((envAt ops handing n).call ⟨.defn 0, 0, .none, [itself], []⟩ m).1 = .timeout := by
  induction n generalizing m with
  | zero => exact ⟨rfl, fun _ => rfl⟩
  | succ n ih =>
    refine ⟨handing_step _ m (ih m).2, fun m => ?_⟩
    have h1 := (ih m).1
    have e : (envAt ops handing (n + 1)).call ⟨.defn 0, 0, .none, [itself], []⟩ m =
        ((envAt ops handing n).expand (.defn 0) (.dom []) [itself] [] 0 >>= fun dom => do
          setIndent [] dom
          let s ← runPy (envAt ops handing n) ((envAt ops handing n).ops.render dom)
          return Val.str s) m := rfl
    rw [e]
    generalize hr : (envAt ops handing n).expand _ _ _ _ _ m = r at h1
    obtain ⟨r, m'⟩ := r
    cases h1
    rw [Comp.bind_timeout hr]

/-- So hypertags must not be used as values: `H %H` with this definition has no outcome. -/
example (r) : ¬ Spec.Outcome (fun n => (envAt ops handing n).expand (.defn 0) (.dom []) [itself] [] 0) (machine []) r := by
  rintro ⟨n, rfl, h⟩
  exact h (handing_endless n _).1

end EndingEx
end Verif
