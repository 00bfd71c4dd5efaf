import Verif.Lemmas.Independent
import Verif.Lemmas.Programs
import Verif.Lemmas.Unslotted
import Verif.Props.Joining
import Verif.Props.Mentions

/-! C112: independent scripts that are put together. -/

namespace Verif
open Py Spec

section
variable {P X W I : Type}

/-! ### C112 Independent scripts put together are rendered one after another -/

/-- The second script does not depend on the first one: it does not mention the symbols that the first one defines, and asks for nothing from
the context; none of them defines a builtin symbol anew. -/
structure Independent (src : Source P I) (g : Dict Str (Val P)) (ss1 ss2 : List (Stmt P)) : Prop where
  symbols : ∀ x ∈ g, validSymbol x.1 = true
  builtins1 : ∀ y ∈ Stmt.definesAll src ss1, y ∉ g.map Prod.fst
  builtins2 : ∀ y ∈ Stmt.definesAll src ss2, y ∉ g.map Prod.fst
  apart : Stmt.onlyNamesAll src (· ∉ Stmt.definesAll src ss1) ss2
  context : Stmt.noContextAll ss2

/-- Hypertags of the document are known by `Γ`. -/
def Enrolled (Γ : DefId → DefInfo P) (doc : Document P) : Prop := ∀ d ∈ Stmt.defsAll doc.children, Γ d.1 = d.2

/-- Hypertags of two documents, and of the joint one. Other hypertags are the same; they are of documents that were loaded before, which have
lower slots. -/
structure Joint (first : Slot) (Γ Γ' : DefId → DefInfo P) (doc1 doc2 doc : Document P) : Prop where
  one : Enrolled Γ doc1
  two : Enrolled Γ doc2
  both : Enrolled Γ' doc
  other : ∀ id, id ∉ (Stmt.defsAll doc.children).map Prod.fst → Γ' id = Γ id ∧ (Γ id).below first

/-- No value in slots from `first` on: these were not given to symbols so far. -/
def Machine.FreshFrom (first : Slot) (M : Machine P W) : Prop := ∀ τ s, first ≤ s → (M.states τ).values s = none

theorem exports_joint {first : Slot} {src : Source P I} {g : Dict Str (Val P)} {ss1 ss1' : List (Stmt P)} {r1 r2 : List (Str × SlotInfo)} {c2 c3 c4 : Ctx}
    {f : Slot → Slot} (h : Opened src first g ss1 ss1' r1 c2) (e3 : c3.binds = seats c2.next g ++ r2)
    (e4 : c4.binds = c2.binds ++ reslotBinds f r2) (hr : ∀ x ∈ r2, x.1 ∉ Stmt.definesAll src ss1) :
    exportsOf g.length c4 = exportsOf g.length c2 ++ (exportsOf g.length c3).map (fun x => (x.1, f x.2)) := by
  have d2 : c2.binds.drop g.length = r1 := by rw [h.binds, ← seats_length g first, List.drop_left]
  have d3 : c3.binds.drop g.length = r2 := by rw [e3, ← seats_length g c2.next, List.drop_left]
  have d4 : c4.binds.drop g.length = r1 ++ reslotBinds f r2 := by
    rw [e4, h.binds, List.append_assoc, ← seats_length g first, List.drop_left]
  unfold exportsOf
  rw [d2, d3, d4, Dict.update_append]
  have := update_apart (reslotBinds f r2) (Dict.update [] r1) [] (fun x hx hk => by
    obtain ⟨y, hy, rfl⟩ := List.mem_map.1 hx
    obtain ⟨z, hz, e⟩ := List.mem_map.1 hk
    rcases update_mem _ _ _ hz with h' | h'
    · exact absurd h' List.not_mem_nil
    · exact hr y hy (by have := h.names z h'; rw [e] at this; exact this))
  rw [List.append_nil] at this
  rw [this, List.map_append]
  congr 1
  rw [show (Dict.update [] (reslotBinds f r2)) = reslotBinds f (Dict.update [] r2) from update_reslot _ []]
  unfold reslotBinds SlotInfo.reslot
  rw [List.map_map, List.map_map]
  rfl

section
variable {src : Source P I} {g : Dict Str (Val P)} {ss1 ss2 : List (Stmt P)} {mk : Marks} {U : Uni}

/-- Analysis of the scripts and of the joint script. -/
theorem joint_analysis (hi : Independent src g ss1 ss2) (ht1 : Stmt.tailsAll Stmt.bare ss1) (ht2 : Stmt.tailsAll Stmt.bare ss2) (first : Slot)
    {doc1 : Document P} (h1 : analyseDocument src first g ss1 = .ok doc1) :
    ∃ m, first + g.length ≤ m ∧ doc1.slotsIn = fills first g ∧ NeatAll (first + g.length) m doc1.children ∧
      (∀ x ∈ doc1.slotsOut, x.2 < m) ∧
      ((∃ e, analyseDocument src m g ss2 = .error e ∧ analyseDocument src first g (ss1 ++ ss2) = .error e) ∨
      ∃ doc2 m', analyseDocument src m g ss2 = .ok doc2 ∧ doc2.slotsIn = fills m g ∧ NeatAll (m + g.length) m' doc2.children ∧
        analyseDocument src first g (ss1 ++ ss2) = .ok ⟨fills first g, doc1.children ++ Stmt.reslotAll (joinSlot first m g.length) doc2.children,
          doc1.slotsOut ++ doc2.slotsOut.map (fun x => (x.1, joinSlot first m g.length x.2))⟩) := by
  rw [analyseDocument_open hi.symbols] at h1
  cases ha : analyseAll src ss1 (openCtx first g) with
  | error e => rw [ha] at h1; cases h1
  | ok r =>
    obtain ⟨ss1', c2⟩ := r
    rw [ha] at h1
    cases h1
    obtain ⟨r1, ho⟩ := opened first ht1 hi.builtins1 ha
    refine ⟨c2.next, ho.next, rfl, ho.neat, fun x hx => ?_, ?_⟩
    · obtain ⟨y, hy, rfl⟩ := List.mem_map.1 hx
      rcases update_mem _ _ _ hy with hy | hy
      · exact absurd hy List.not_mem_nil
      · exact ho.below y (List.mem_of_mem_drop hy)
    · rw [analyseDocument_open hi.symbols, analyseDocument_open hi.symbols, analyseAll_append, ha]
      rcases continued ho ht2 hi.builtins2 hi.apart hi.context with ⟨e, k1, k2⟩ | ⟨ss2', c3, c4, k1, k2, k3, k4, k5⟩
      · refine .inl ⟨e, ?_, ?_⟩
        · rw [k1]; rfl
        · show ((analyseAll src ss2 c2 >>= _) >>= _) = _
          rw [k2]; rfl
      · refine .inr ⟨⟨fills c2.next g, ss2', exportsOf g.length c3⟩, c3.next, ?_, rfl, k5, ?_⟩
        · rw [k1]; rfl
        · show ((analyseAll src ss2 c2 >>= _) >>= _) = _
          rw [k2]
          obtain ⟨r2, e3, e4, hr⟩ := k3.binds
          show Except.ok _ = Except.ok _
          congr 2
          exact exports_joint ho e3 e4 (fun x hx => (hr x hx).1)

/-- A fault in the first script is the fault of the joint one. -/
theorem C112_first_fault (g : Dict Str (Val P)) (ss1 ss2 : List (Stmt P)) (hg : ∀ x ∈ g, validSymbol x.1 = true) (first : Slot) {e : AErr I}
    (h : analyseDocument src first g ss1 = .error e) : analyseDocument src first g (ss1 ++ ss2) = .error e := by
  rw [analyseDocument_open hg] at h ⊢
  rw [analyseAll_append]
  cases ha : analyseAll src ss1 (openCtx first g) with
  | error e' => rw [ha] at h; cases h; rfl
  | ok r => rw [ha] at h; cases h

theorem DefInfo.writes_any (d : DefInfo P) : d.writes (fun _ => True) := ⟨fun _ _ => trivial, fun _ _ => trivial, Stmt.writes_any _⟩

/-- Two scripts of which the second one does not depend on the first. When the first one has been analysed, the second one has the same fault
after it as alone, where its slots are those that are still free. If there is none, the joint script renders what the scripts render in
turn: the same nodes in the same order under the root, with the same contents, or the same exception; and it exports the symbols of both. -/
theorem C112_document (hi : Independent src g ss1 ss2) (hm1 : Stmt.MadeDocument mk U ss1) (hm2 : Stmt.MadeDocument mk U ss2) (first : Slot)
    {doc1 : Document P} (h1 : analyseDocument src first g ss1 = .ok doc1) :
    ∃ m, first ≤ m ∧ doc1.below m ∧ (∀ e, analyseDocument src first g (ss1 ++ ss2) = .error e ↔ analyseDocument src m g ss2 = .error e) ∧
      ∀ doc2, analyseDocument src m g ss2 = .ok doc2 → ∃ doc, analyseDocument src first g (ss1 ++ ss2) = .ok doc ∧
        doc.slotsOut.map Prod.fst = doc1.slotsOut.map Prod.fst ++ doc2.slotsOut.map Prod.fst ∧
        ∀ (ops : PyOps P X W) (Γ Γ' : DefId → DefInfo P), Joint first Γ Γ' doc1 doc2 doc → ∀ (n : Nat) (σ : StateId) (M : Machine P W), M.FreshFrom first →
          (translDocument (envAt ops Γ' n) σ doc M).1 = (inTurn (envAt ops Γ n) σ doc1 doc2 M).1 ∧
          (translDocument (envAt ops Γ' n) σ doc M).2.mem = (inTurn (envAt ops Γ n) σ doc1 doc2 M).2.mem := by
  obtain ⟨m, hm, hin, hneat, hout, hrest⟩ := joint_analysis hi (Stmt.MadeAll.tailsOf (fun _ h => h.bare) hm1.2)
    (Stmt.MadeAll.tailsOf (fun _ h => h.bare) hm2.2) first h1
  have fixOut : ∀ h : Slot → Slot, Holds m h → doc1.slotsOut.map (fun x => (x.1, h x.2)) = doc1.slotsOut := fun h hh =>
    map_fix (fun x hx => by rw [hh _ (hout x hx)])
  refine ⟨m, Nat.le_trans (Nat.le_add_right _ _) hm, fun h hh => ?_, fun e => ?_, fun doc2 h2 => ?_⟩
  · unfold Document.reslot
    rw [hneat.fix h hh, fixOut h hh, map_fix (fun x hx => by
      rw [hin] at hx
      rw [hh _ (Nat.lt_of_lt_of_le (fills_slot _ _ x hx).2 hm)])]
  · rcases hrest with ⟨e', k1, k2⟩ | ⟨doc2, m', k1, _, _, k2⟩
    · rw [k1, k2]
    · rw [k1, k2]; simp
  rcases hrest with ⟨e', k1, k2⟩ | ⟨doc2', m', k1, k3, k4, k2⟩
  · rw [k1] at h2; cases h2
  rw [k1] at h2
  cases h2
  refine ⟨_, k2, by simp [Function.comp_def], fun ops Γ Γ' hJ n σ M hM => ?_⟩
  have hf : Holds m (joinSlot first m g.length) := fun n hn => joinSlot_low hn
  have own1 : ∀ o, Amid (first + g.length) m o → Own (joinSlot first m g.length) o := fun o ho =>
    joinSlot_own hm (fun sl e => .inr (.inl (ho sl e)))
  have own2 : ∀ o, Late (m + g.length) o → Own (joinSlot first m g.length) o := fun o ho =>
    joinSlot_own hm (fun sl e => .inr (.inr (ho sl e)))
  have own0 : ∀ o, Amid 0 first o → Own (joinSlot first m g.length) o := fun o ho =>
    joinSlot_own hm (fun sl e => .inl (ho sl e).2)
  have hdefs : ∀ d ∈ Stmt.defsAll doc1.children, d.2.reslot (joinSlot first m g.length) = d.2 := by
    have := Stmt.defsAll_reslot (joinSlot first m g.length) doc1.children
    rw [hneat.fix _ hf] at this
    intro d hd
    exact congrArg Prod.snd (fix_of_map this.symm d hd)
  have hΓ : ∀ id, (Γ id).writes (Own (joinSlot first m g.length)) ∧ Γ' id = (Γ id).reslot (joinSlot first m g.length) := by
    intro id
    by_cases hid : id ∈ (Stmt.defsAll (doc1.children ++ Stmt.reslotAll (joinSlot first m g.length) doc2.children)).map Prod.fst
    · obtain ⟨d, hd, rfl⟩ := List.mem_map.1 hid
      have hb := hJ.both d hd
      rw [defsAll_append] at hd
      rcases List.mem_append.1 hd with hd | hd
      · have ho := hJ.one d hd
        rw [hb, ho, hdefs d hd]
        exact ⟨DefInfo.writes_mono own1 (hneat.amid.2 d hd), rfl⟩
      · rw [Stmt.defsAll_reslot] at hd
        obtain ⟨d', hd', rfl⟩ := List.mem_map.1 hd
        have ho := hJ.two d' hd'
        exact ⟨by show (Γ d'.1).writes _; rw [ho]; exact DefInfo.writes_mono own2 (k4.defs d' hd'), by rw [hb]; show _ = (Γ d'.1).reslot _; rw [ho]⟩
    · obtain ⟨e1, e2⟩ := hJ.other id hid
      exact ⟨DefInfo.writes_mono own0 (DefInfo.below_writes e2 (DefInfo.writes_any _)), by
        rw [e1, e2 _ (hf.le (Nat.le_trans (Nat.le_add_right _ _) hm))]⟩
  have hE := envAt_sim ops hΓ n
  obtain ⟨M1, M2, a1, a2, a3⟩ := fills_corr (X := X) hm σ M hM
  let rest1 : Comp P X W (Ref × Dict Str (Val P)) := do
    let a ← translAll (envAt ops Γ n) σ doc1.children
    let b ← translAll (envAt ops Γ n) σ doc2.children
    let root ← newNode .root (a ++ b) (some ['\n']) .none .none .none
    let n ← readNode root
    writeNode root { n with indent := some [] }
    let symbols ← readSymbols σ (doc1.slotsOut ++ doc2.slotsOut)
    return (root, symbols)
  let rest2 : Comp P X W (Ref × Dict Str (Val P)) := do
    let a ← translAll (envAt ops Γ' n) σ doc1.children
    let b ← translAll (envAt ops Γ' n) σ (Stmt.reslotAll (joinSlot first m g.length) doc2.children)
    let root ← newNode .root (a ++ b) (some ['\n']) .none .none .none
    let n ← readNode root
    writeNode root { n with indent := some [] }
    let symbols ← readSymbols σ (doc1.slotsOut ++ doc2.slotsOut.map (fun x => (x.1, joinSlot first m g.length x.2)))
    return (root, symbols)
  have e1 : inTurn (envAt ops Γ n) σ doc1 doc2 M = rest1 M2 := by
    unfold inTurn
    rw [hin, k3, Comp.bind_run, a1]
    show (setSlots σ (fills m g) >>= _) M1 = _
    rw [Comp.bind_run, a2]
    rfl
  have e2 : translDocument (envAt ops Γ' n) σ ⟨fills first g, doc1.children ++ Stmt.reslotAll (joinSlot first m g.length) doc2.children,
          doc1.slotsOut ++ doc2.slotsOut.map (fun x => (x.1, joinSlot first m g.length x.2))⟩ M = rest2 M1 := by
    unfold translDocument
    rw [Comp.bind_run, a1, translAll_append]
    simp only [Comp.bind_assoc, Comp.pure_bind, rest2, Comp.next]
  have hs : Sim (joinSlot first m g.length) rest1 rest2 := by
    refine Sim.bind ?_ (fun a => Sim.bind ?_ (fun b => Sim.bind (newNode_sim hE _ _ _ _ _ _) (fun r => Sim.bind (Sim.readNode r) (fun x =>
      Sim.bind (Sim.writeNode r _) (fun _ => Sim.bind ?_ (fun s => Sim.pure _))))))
    · have := translAll_sim hE σ doc1.children (Stmt.writesAll_mono own1 _ hneat.amid.1)
      rw [hneat.fix _ hf] at this
      exact this
    · exact translAll_sim hE σ doc2.children (Stmt.writesAll_mono own2 _ k4.writes)
    · have := readSymbols_sim (X := X) (W := W) (P := P) (f := joinSlot first m g.length) σ (doc1.slotsOut ++ doc2.slotsOut)
      rw [List.map_append, fixOut _ hf] at this
      exact this
  rw [e1, e2]
  have := hs M2 M1 a3
  exact ⟨this.1.symm, this.2.mem.symm⟩

/-! ### The numbers of slots -/

/-- The slots from `first` on, moved by `k`. -/
def liftSlot (first k : Slot) (s : Slot) : Slot := if s < first then s else s + k

theorem liftSlot_inj (first k : Nat) (s t : Nat) (h : liftSlot first k s = liftSlot first k t) : s = t := by
  have h : (if s < first then s else s + k) = (if t < first then t else t + k) := h
  split at h <;> split at h <;> omega

theorem liftSlot_own (first k : Slot) (o : Option Slot) : Own (liftSlot first k) o := fun sl _ s h => liftSlot_inj first k s sl h

/-- It does not matter with which number slots begin: analysis finds the same fault, or gives the same document with other slots. -/
theorem C112_numbering (hm : Stmt.MadeDocument mk U ss1) (first k : Slot) :
    analyseDocument src (first + k) g ss1 = (analyseDocument src first g ss1).map (Document.reslot (liftSlot first k)) := by
  have ht : Stmt.tailsAll Stmt.bare ss1 := Stmt.MadeAll.tailsOf (fun _ h => h.bare) hm.2
  have hS : Seating (liftSlot first k) (fun _ => True) first [] [] := ⟨fun _ _ => rfl, by simp⟩
  have hstep : ∀ n, first ≤ n → liftSlot first k (n + 1) = liftSlot first k n + 1 := by
    intro n hn
    unfold liftSlot
    rw [if_neg (Nat.not_lt.2 hn), if_neg (Nat.not_lt.2 (Nat.le_succ_of_le hn)), Nat.add_right_comm]
  have hc : Ctx.Seat (liftSlot first k) (fun _ => True) first True [] [] { next := first } { next := first + k } :=
    ⟨⟨[], rfl, rfl, by simp⟩, rfl, rfl, rfl, fun _ => rfl, by
      show first + k = liftSlot first k first
      unfold liftSlot; rw [if_neg (Nat.lt_irrefl _)], hstep, Nat.le_refl _, by simp⟩
  unfold analyseDocument
  rcases valueSlots_seated (I := I) hS g (fun _ _ => trivial) _ _ hc with ⟨e, a1, a2⟩ | ⟨ins, c1, c1', a1, a2, hc1, _, _⟩
  · rw [a1, a2]; rfl
  rw [a1, a2]
  rcases analyseAll_seated (src := src) hS ss1 _ _ hc1 (Stmt.onlyNamesAll_any src ss1) ht (.inl trivial) (fun _ y _ => by simp)
    with ⟨e, b1, b2⟩ | ⟨ss', c2, c2', b1, b2, hc2, _, _⟩
  · show (analyseAll src ss1 c1' >>= _) = Except.map _ (analyseAll src ss1 c1 >>= _)
    rw [b1, b2]; rfl
  · show (analyseAll src ss1 c1' >>= _) = Except.map _ (analyseAll src ss1 c1 >>= _)
    rw [b1, b2]
    show Except.ok _ = Except.ok _
    unfold Document.reslot
    obtain ⟨r1, e1, e1', _⟩ := hc1.binds
    obtain ⟨r2, e2, e2', _⟩ := hc2.binds
    simp only [List.nil_append] at e1 e1' e2 e2'
    congr 2
    · simp [Function.comp_def]
    · rw [e1, e1', e2, e2']
      have : (reslotBinds (liftSlot first k) r2).drop (reslotBinds (liftSlot first k) r1).length = reslotBinds (liftSlot first k) (r2.drop r1.length) := by
        unfold reslotBinds
        rw [List.length_map, List.map_drop]
      rw [this, show (Dict.update [] (reslotBinds (liftSlot first k) (r2.drop r1.length))) = reslotBinds (liftSlot first k) (Dict.update [] (r2.drop r1.length)) from update_reslot _ []]
      unfold reslotBinds SlotInfo.reslot
      rw [List.map_map, List.map_map]
      rfl

/-- And translation gives the same result, with the same nodes. Hypertags are those of the document, with its slots; or of other documents, which
have lower slots. -/
theorem C112_renumbered (first k : Slot) (doc : Document P) (ops : PyOps P X W) (Γ Γ' : DefId → DefInfo P)
    (h : Enrolled Γ doc) (h' : Enrolled Γ' (doc.reslot (liftSlot first k)))
    (other : ∀ id, id ∉ (Stmt.defsAll doc.children).map Prod.fst → Γ' id = Γ id ∧ (Γ id).below first) (n : Nat) (σ : StateId) (M : Machine P W)
    (hM : M.FreshFrom first) :
    (translDocument (envAt ops Γ' n) σ (doc.reslot (liftSlot first k)) M).1 = (translDocument (envAt ops Γ n) σ doc M).1 ∧
    (translDocument (envAt ops Γ' n) σ (doc.reslot (liftSlot first k)) M).2.mem = (translDocument (envAt ops Γ n) σ doc M).2.mem := by
  have own := liftSlot_own first k
  have hΓ : ∀ id, (Γ id).writes (Own (liftSlot first k)) ∧ Γ' id = (Γ id).reslot (liftSlot first k) := by
    intro id
    refine ⟨DefInfo.writes_mono (fun o _ => own o) (DefInfo.writes_any _), ?_⟩
    by_cases hid : id ∈ (Stmt.defsAll doc.children).map Prod.fst
    · obtain ⟨d, hd, rfl⟩ := List.mem_map.1 hid
      rw [h d hd]
      refine h' (d.1, d.2.reslot (liftSlot first k)) ?_
      show _ ∈ Stmt.defsAll (Stmt.reslotAll (liftSlot first k) doc.children)
      rw [Stmt.defsAll_reslot]
      exact List.mem_map.2 ⟨d, hd, rfl⟩
    · obtain ⟨e1, e2⟩ := other id hid
      rw [e1, e2 (liftSlot first k) (fun n hn => if_pos hn)]
  have hE := envAt_sim ops hΓ n
  have hs : Sim (liftSlot first k) (translDocument (envAt ops Γ n) σ doc) (translDocument (envAt ops Γ' n) σ (doc.reslot (liftSlot first k))) := by
    unfold translDocument Document.reslot
    exact Sim.bind (setSlots_sim σ _ (fun _ _ => own _)) (fun _ => Sim.bind (translAll_sim hE σ _ (Stmt.writesAll_mono (fun o _ => own o) _ (Stmt.writesAll_any _)))
      (fun a => Sim.bind (newNode_sim hE _ _ _ _ _ _) (fun r => Sim.bind (Sim.readNode r) (fun x =>
        Sim.bind (Sim.writeNode r _) (fun _ => Sim.bind (readSymbols_sim σ _) (fun s => Sim.pure _))))))
  have := hs M M ⟨rfl, fun _ => rfl, fun τ s => by
    unfold liftSlot
    by_cases hs : s < first
    · rw [if_pos hs]
    · rw [if_neg hs, hM τ s (Nat.not_lt.1 hs), hM τ (s + k) (Nat.le_trans (Nat.not_lt.1 hs) (Nat.le_add_right _ _))]⟩
  exact ⟨this.1.symm, this.2.mem.symm⟩

end
end

/-! ### Examples -/

namespace IndependentEx
open MentionsEx

/-- `$z = x`. -/
def before : List (Stmt Toy.Obj) := [.xblock [] none (.assign (.many [.var (s!!"z") false none none]) none (.varUse (s!!"x") none))]

theorem made_before : Stmt.MadeDocument defaultMarks asciiUni before := by
  have hx : Ident (s!!"x") := ⟨'x', [], rfl, by decide +kernel, by simp⟩
  have hz : Ident (s!!"z") := ⟨'z', [], rfl, by decide +kernel, by simp⟩
  refine ⟨⟨before, [], (List.append_nil _).symm, WellNested.one (by rfl) .nil, by simp, by simp⟩, ?_⟩
  simp [before, Stmt.MadeAll, Stmt.Made, Stmt.role, Newlines, Target.Made, Target.MadeAll, Expr.Made, hx, hz]

theorem independent : Independent source builtins before parsed where
  symbols := by decide +kernel
  builtins1 := by decide +kernel
  builtins2 := by decide +kernel
  apart := by
    simp only [parsed, Stmt.onlyNamesAll, Stmt.onlyNames, Target.onlyNames, Target.onlyNamesAll, Expr.uses]
    decide +kernel
  context := by simp [parsed, Stmt.noContextAll, Stmt.noContext]

-- the theorem applies, and the document it speaks of exports the symbols of both scripts
example : ∃ doc, analyseDocument source 0 builtins (before ++ parsed) = .ok doc ∧ doc.slotsOut.map Prod.fst = [s!!"$z", s!!"$y"] := by
  obtain ⟨m, hm, h1, h2, h3⟩ := C112_document (X := Str) (W := Unit) independent made_before made 0 (doc1 :=
    ⟨[(0, .py (.tag 0)), (1, .str (s!!"a<b")), (2, .py (.seq [.num 1, .num 2]))],
      [.xblock [] none (.assign (.many [.var (s!!"z") false none (some 3)]) none (.varUse (s!!"x") (some 1)))], [(s!!"$z", 3)]⟩) rfl
  cases h : analyseDocument source m builtins parsed with
  | error e => exact absurd ((h2 e).2 h) (by intro h; cases h)
  | ok doc2 =>
    obtain ⟨doc, a, b, _⟩ := h3 doc2 h
    exact ⟨doc, a, by cases a; rfl⟩

/-- A fault of the second script is found after the first one. -/
example : analyseDocument source 0 builtins (before ++ [.exprBlock (.varUse (s!!"w") none)]) = .error (.undefinedVar (s!!"$w")) := rfl

/-- Slots from another number on. -/
example : (analyseDocument source 7 builtins parsed).toOption.map (fun d => (d.slotsIn.map Prod.fst, d.slotsOut)) =
    some ([7, 8, 9], [(s!!"$y", 10)]) := by decide +kernel

/-- From the text of a script to the text of the document: any definitions. -/
def text (src : Str) : Option Str :=
  match loadScript defaultMarks asciiUni (fun _ => none) src with
  | .ok ss =>
    match analyseDocument source 0 builtins ss with
    | .ok doc =>
      let Γ : DefId → DefInfo Toy.Obj := fun id => (((Stmt.defsAll doc.children).find? (fun d => d.1 == id)).map Prod.snd).getD ⟨none, [], .pass⟩
      match translDocument (envAt exPyEnv.ops Γ 9) 0 doc (Toy.machine []) with
      | (.ok (root, _), M) => if exShallow M.mem 9 root then (renderNode (fun _ _ _ _ => .ok []) (exUnfold M.mem 9 root)).toOption else none
      | _ => none
    | .error _ => none
  | .error _ => none

-- a definition, a loop and an assignment in both scripts, with local variables of the same names, and the text of the scripts
def one : Str := s!!"%H t\n    p | {t}-{x}\nfor i in s:\n    $u = i\n    H u"
def two : Str := s!!"%K t\n    p | <{t}>\n$v = x\nfor i in s:\n    $w = i\n    K w"

example : (text one).isSome = true ∧ (text two).isSome = true ∧
    text (exJoin one two) = (do let a ← text one; let b ← text two; return a ++ '\n' :: b) := by decide +kernel

/-- A script that mentions a symbol of the first one is not independent: it is faulty alone. -/
example : text (s!!"| $z") = none ∧ text (exJoin (s!!"$z = x") (s!!"| $z")) ≠ none := by decide +kernel

end IndependentEx

open IndependentEx in
/-- Builtins that are assigned anew: the second script has the value of the first one. -/
theorem C112_builtin_shared : ∃ s1 s2, (text s1).isSome ∧ (text s2).isSome ∧
    text (exJoin s1 s2) ≠ (do let a ← text s1; let b ← text s2; return a ++ '\n' :: b) :=
  ⟨s!!"$x = 'c'\n| $x", s!!"| $x", by decide +kernel⟩
end Verif
