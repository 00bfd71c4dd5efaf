import Verif.Lemmas.Unslotted
import Verif.Props.Made
import Verif.Props.Safety
import Verif.Props.Visible

/-! C101: symbols that a script does not mention. -/

namespace Verif
open Py Spec

section
variable {P X W I : Type}

/-! ### C101 Symbols that a script does not mention make no difference to it -/

/-- The symbols `xs` are new: not among the other builtins `g`, and not in the script. -/
structure Unmentioned (src : Source P I) (xs g : Dict Str (Val P)) (children : List (Stmt P)) : Prop where
  symbols : ∀ x ∈ xs, validSymbol x.1 = true
  builtins : ∀ x ∈ g, x.1 ∉ xs.map Prod.fst
  script : Stmt.onlyNamesAll src (· ∉ xs.map Prod.fst) children

theorem valueSlots_app (a b : List (Str × Val P)) (c : Ctx) : (valueSlots (a ++ b) c : Except (AErr I) _) =
    (do let (l, c) ← valueSlots a c; let (l', c) ← valueSlots b c; return (l ++ l', c)) := by
  induction a generalizing c with
  | nil =>
    show _ = (valueSlots b c >>= fun x => pure ([] ++ x.1, x.2))
    cases h : (valueSlots b c : Except (AErr I) _) with
    | error e => simp only [List.nil_append, h]; rfl
    | ok r => simp only [List.nil_append, h]; rfl
  | cons x a ih =>
    obtain ⟨sym, v⟩ := x
    simp only [List.cons_append, valueSlots]
    cases hs : (newSlot c sym : Except (AErr I) _) with
    | error e => rfl
    | ok r =>
      obtain ⟨s, c1⟩ := r
      show (valueSlots (a ++ b) c1 >>= _) = ((valueSlots a c1 >>= _) >>= _)
      rw [ih]
      cases (valueSlots a c1 : Except (AErr I) _) with
      | error e => rfl
      | ok r =>
        obtain ⟨l, c2⟩ := r
        show ((valueSlots b c2 >>= _) >>= _) = (valueSlots b c2 >>= _)
        cases (valueSlots b c2 : Except (AErr I) _) <;> rfl

theorem valueSlots_front (xs : List (Str × Val P)) (hv : ∀ x ∈ xs, validSymbol x.1 = true) : ∀ c : Ctx,
    ∃ (l : List (Str × Slot × Val P)) (xb : List (Str × SlotInfo)),
      (valueSlots xs c : Except (AErr I) _) = .ok (l, { c with binds := c.binds ++ xb, next := c.next + xs.length }) ∧
      xb.map Prod.fst = xs.map Prod.fst ∧ l.map (fun x => x.2.1) = List.range' c.next xs.length ∧ l.map (fun x => x.2.2) = xs.map Prod.snd := by
  induction xs with
  | nil => intro c; exact ⟨[], [], by simp [valueSlots]; rfl, rfl, rfl, rfl⟩
  | cons x xs ih =>
    intro c
    obtain ⟨sym, v⟩ := x
    have hs : validSymbol sym = true := hv _ List.mem_cons_self
    obtain ⟨l, xb, h1, h2, h3, h4⟩ := ih (fun x hx => hv x (List.mem_cons_of_mem _ hx))
      { c.push sym { id := c.next, depth := c.regular } with next := c.next + 1 }
    refine ⟨(sym, c.next, v) :: l, (sym, { id := c.next, depth := c.regular }) :: xb, ?_, by simp [h2], ?_, by simp [h4]⟩
    · simp only [valueSlots, newSlot, hs, if_true]
      show (valueSlots xs _ >>= _) = _
      rw [h1]
      simp only [Ctx.push, List.append_assoc, List.length_cons, Nat.add_assoc, Nat.add_comm 1]
      rfl
    · rw [List.map_cons, h3]; rfl

section
variable {src : Source P I} {xs g : Dict Str (Val P)} {children : List (Stmt P)}

/-- Analysis of the two documents, side by side. -/
theorem unmentioned_analysis (hu : Unmentioned src xs g children) (ht : Stmt.tailsAll Stmt.unslotted children) (first : Slot) :
    (∃ e, analyseDocument src (first + xs.length) g children = .error e ∧ analyseDocument src first (xs ++ g) children = .error e) ∨
    ∃ doc extra, analyseDocument src (first + xs.length) g children = .ok doc ∧
      analyseDocument src first (xs ++ g) children = .ok { doc with slotsIn := extra ++ doc.slotsIn } ∧
      extra.map Prod.fst = List.range' first xs.length ∧ extra.map Prod.snd = xs.map Prod.snd ∧
      LateAll (first + xs.length) doc.children ∧ ∀ x ∈ doc.slotsOut, first + xs.length ≤ x.2 := by
  obtain ⟨l, xb, h1, h2, h3, h4⟩ := valueSlots_front (I := I) xs hu.symbols { next := first }
  have hx : ∀ x ∈ xb, ¬ x.1 ∉ xs.map Prod.fst := fun x hx h => h (h2 ▸ List.mem_map_of_mem hx)
  let c0 : Ctx := { next := first + xs.length }
  have hc0 : c0.Above (· ∉ xs.map Prod.fst) (first + xs.length) := ⟨Nat.le_refl _, by simp [c0]⟩
  have h1 : (valueSlots xs { next := first } : Except (AErr I) _) = .ok (l, c0.under xb) := by
    rw [h1]; simp [c0, Ctx.under]
  unfold analyseDocument
  rw [valueSlots_app, h1]
  rcases valueSlots_alike (I := I) hx g hu.builtins c0 hc0 with ⟨e, g1, g2⟩ | ⟨ins, c1, g1, g2, hc1, -⟩
  · refine .inl ⟨e, ?_, ?_⟩
    · rw [g1]; rfl
    · show ((valueSlots g (c0.under xb) >>= _) >>= _) = _
      rw [g2]; rfl
  rcases analyseAll_alike hx (src := src) rfl (fun _ _ => rfl) children c1 hc1 hu.script ht with ⟨e, k1, k2⟩ | ⟨ss, c2, k1, k2, hc2, hs⟩
  · refine .inl ⟨e, ?_, ?_⟩
    · rw [g1]
      show (analyseAll src children c1 >>= _) = _
      rw [k1]; rfl
    · show ((valueSlots g (c0.under xb) >>= _) >>= _) = _
      rw [g2]
      show (analyseAll src children (c1.under xb) >>= _) = _
      rw [k2]; rfl
  · refine .inr ⟨Document.mk (ins.map Prod.snd) ss ((Dict.update [] (c2.binds.drop c1.binds.length)).map (fun p => (p.1, p.2.id))), l.map Prod.snd, ?_, ?_, ?_, ?_, ?_, ?_⟩
    · rw [g1]
      show (analyseAll src children c1 >>= _) = _
      rw [k1]; rfl
    · show ((valueSlots g (c0.under xb) >>= _) >>= _) = _
      rw [g2]
      show (analyseAll src children (c1.under xb) >>= _) = _
      rw [k2]
      show Except.ok _ = Except.ok _
      congr 2
      · simp
      · simp only [Ctx.under, List.length_append, List.drop_append]
        rw [List.drop_eq_nil_of_le (Nat.le_add_right _ _)]
        simp
    · rw [← h3, List.map_map]; rfl
    · rw [← h4, List.map_map]; rfl
    · exact hs
    · intro x hx
      obtain ⟨y, hy, rfl⟩ := List.mem_map.1 hx
      rcases update_mem _ _ _ hy with hy | hy
      · exact absurd hy List.not_mem_nil
      · exact (hc2.binds _ (List.mem_of_mem_drop hy)).2

variable {mk : Marks} {U : Uni}

/-- Analysis finds the same fault, or none: more builtins cannot make a script fail, or repair it. -/
theorem C101_faults (hu : Unmentioned src xs g children) (hm : Stmt.MadeDocument mk U children) (first : Slot) (e : AErr I) :
    analyseDocument src first (xs ++ g) children = .error e ↔ analyseDocument src (first + xs.length) g children = .error e := by
  rcases unmentioned_analysis hu hm.2.tails first with ⟨e', h1, h2⟩ | ⟨doc, extra, h1, h2, _⟩
  · rw [h1, h2]
  · rw [h1, h2]; simp

/-- The statements are the same after analysis, and the symbols that the document exports; the only trace of the new symbols is that they
have slots. These are the first slots of the document. -/
theorem C101_analysis (hu : Unmentioned src xs g children) (hm : Stmt.MadeDocument mk U children) (first : Slot) {doc : Document P}
    (h : analyseDocument src (first + xs.length) g children = .ok doc) :
    ∃ doc', analyseDocument src first (xs ++ g) children = .ok doc' ∧ doc'.children = doc.children ∧ doc'.slotsOut = doc.slotsOut ∧
      ∃ extra, doc'.slotsIn = extra ++ doc.slotsIn ∧ extra.map Prod.fst = List.range' first xs.length ∧
        extra.map Prod.snd = xs.map Prod.snd := by
  rcases unmentioned_analysis hu hm.2.tails first with ⟨e', h1, h2⟩ | ⟨doc', extra, h1, h2, h3, h4, _⟩
  · rw [h1] at h; cases h
  · rw [h1] at h; cases h
    exact ⟨_, h2, rfl, rfl, extra, rfl, h3, h4⟩

/-- Translation gives the same root, the same nodes and exported values, or the same exception, whatever the new symbols are. Hypertags are
those of the document, or of other documents, which have other slots. -/
theorem C101_document (hu : Unmentioned src xs g children) (hm : Stmt.MadeDocument mk U children) (first : Slot) {doc doc' : Document P}
    (h : analyseDocument src (first + xs.length) g children = .ok doc) (h' : analyseDocument src first (xs ++ g) children = .ok doc')
    (ops : PyOps P X W) (Γ : DefId → DefInfo P)
    (hΓ : ∀ id, (id, Γ id) ∈ Stmt.defsAll doc.children ∨ (Γ id).reads (fun o => ∀ sl, o = some sl → sl < first ∨ first + xs.length ≤ sl))
    (n : Nat) (σ : StateId) (M : Machine P W) :
    (translDocument (envAt ops Γ n) σ doc' M).1 = (translDocument (envAt ops Γ n) σ doc M).1 ∧
    (translDocument (envAt ops Γ n) σ doc' M).2.mem = (translDocument (envAt ops Γ n) σ doc M).2.mem := by
  rcases unmentioned_analysis hu hm.2.tails first with ⟨e', h1, h2⟩ | ⟨d, extra, h1, h2, h3, h4, h5, h6⟩
  · rw [h1] at h; cases h
  rw [h1] at h; cases h
  rw [h2] at h'; cases h'
  let K : Slot → Prop := fun sl => sl < first ∨ first + xs.length ≤ sl
  have late : ∀ o, Late (first + xs.length) o → Spec.Known K o := fun o ho sl e => .inr (ho sl e)
  have hK : ∀ id, (Γ id).reads (Spec.Known K) := by
    intro id
    rcases hΓ id with hd | hd
    · exact DefInfo.reads_mono late (h5.2 _ hd)
    · exact hd
  have B := translRest_blind ops Γ hK n σ doc (Stmt.readsAll_mono late _ h5.1) (fun x hx => .inr (h6 x hx))
  obtain ⟨M1, e, hM⟩ := setSlots_append (X := X) σ extra doc.slotsIn
    (fun _ => do
      let ns ← translAll (envAt ops Γ n) σ doc.children
      let root ← newNode .root ns (some ['\n']) .none .none .none
      let n ← readNode root
      writeNode root { n with indent := some [] }
      let symbols ← readSymbols σ doc.slotsOut
      return (root, symbols)) M
  have e' : translDocument (envAt ops Γ n) σ { doc with slotsIn := extra ++ doc.slotsIn } M = translDocument (envAt ops Γ n) σ doc M1 := e
  rw [e']
  have hx : ∀ x ∈ extra, ¬ K x.1 := by
    intro x hx
    have : x.1 ∈ List.range' first xs.length := h3 ▸ List.mem_map_of_mem hx
    rw [List.mem_range'_1] at this
    rintro (k | k)
    · exact Nat.not_le_of_lt k this.1
    · exact Nat.not_lt_of_le k this.2
  have := B M1 M (hM K hx)
  exact ⟨this.1, this.2.1.mem⟩

end
end

/-! ### Examples -/

namespace MentionsEx

/-- Two builtins, which the script does not mention. -/
def extra : Dict Str (Val Toy.Obj) := [(s!!"$title", .str (s!!"T")), (s!!"%q", .py (.tag 0))]

def builtins : Dict Str (Val Toy.Obj) := [(s!!"%p", .py (.tag 0)), (s!!"$x", .str (s!!"a<b")), (s!!"$s", .py (.seq [.num 1, .num 2]))]

/-- A definition, a loop, an assignment and uses of all of these. -/
def script : Str := s!!"%H t\n    p | {t}-{x}\nfor i in s:\n    $x = i\n    H x\n"

example : exText builtins script = exText (extra ++ builtins) script ∧ (exText builtins script).isSome = true := by decide +kernel

def source : Source Toy.Obj Unit := ⟨fun _ => .error (), []⟩

/-- `$y = x`, then `$y`. -/
def parsed : List (Stmt Toy.Obj) :=
  [.xblock [] none (.assign (.many [.var (s!!"y") false none none]) none (.varUse (s!!"x") none)),
    .xblock (s!!"\n") none (.exprBlock (.varUse (s!!"y") none))]

theorem unmentioned : Unmentioned source extra builtins parsed where
  symbols := by decide +kernel
  builtins := by decide +kernel
  script := by
    simp only [parsed, Stmt.onlyNamesAll, Stmt.onlyNames, Target.onlyNames, Target.onlyNamesAll, Expr.uses]
    decide +kernel

theorem made : Stmt.MadeDocument defaultMarks asciiUni parsed := by
  have hx : Ident (s!!"x") := ⟨'x', [], rfl, by decide +kernel, by simp⟩
  have hy : Ident (s!!"y") := ⟨'y', [], rfl, by decide +kernel, by simp⟩
  refine ⟨⟨parsed, [], (List.append_nil _).symm, WellNested.one (by rfl) (WellNested.one (by rfl) .nil), by simp, by simp⟩, ?_⟩
  simp [parsed, Stmt.MadeAll, Stmt.Made, Stmt.role, Newlines, Target.Made, Target.MadeAll, Expr.Made, hx, hy]

/-- Both documents are accepted; only the slots of the new symbols differ. -/
example : ∃ doc, analyseDocument source 2 builtins parsed = .ok doc ∧ doc.slotsIn.map Prod.fst = [2, 3, 4] ∧
    doc.slotsOut = [(s!!"$y", 5)] ∧ ∃ doc', analyseDocument source 0 (extra ++ builtins) parsed = .ok doc' ∧
      doc'.children = doc.children ∧ doc'.slotsOut = doc.slotsOut ∧ doc'.slotsIn.map Prod.fst = [0, 1, 2, 3, 4] := by
  obtain ⟨doc', h1, h2, h3, extra', h4, h5, h6⟩ := C101_analysis unmentioned made 0 (doc :=
    ⟨[(2, .py (.tag 0)), (3, .str (s!!"a<b")), (4, .py (.seq [.num 1, .num 2]))],
      [.xblock [] none (.assign (.many [.var (s!!"y") false none (some 5)]) none (.varUse (s!!"x") (some 3))),
        .xblock (s!!"\n") none (.exprBlock (.varUse (s!!"y") (some 5)))],
      [(s!!"$y", 5)]⟩) rfl
  exact ⟨_, rfl, rfl, rfl, doc', h1, h2, h3, by rw [h4, List.map_append, h5]; rfl⟩

/-- It matters that the script does not mention the symbols: a use of an undefined variable is repaired by a builtin. -/
example : analyseDocument source 2 builtins [.exprBlock (.varUse (s!!"title") none)] = .error (.undefinedVar (s!!"$title")) ∧
    (analyseDocument source 0 (extra ++ builtins) [.exprBlock (.varUse (s!!"title") none)]).toOption.isSome = true := ⟨rfl, rfl⟩

/-- Symbols that are assigned count, too: a variable of the same name as a builtin is not exported. -/
example : VisibleEx.exports [] (s!!"$title = 'a'\n") ≠ VisibleEx.exports extra (s!!"$title = 'a'\n") := by decide +kernel

end MentionsEx
end Verif
