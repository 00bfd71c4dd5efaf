import Verif.Lemmas.Fresh
import Verif.Lemmas.ReadsMono

/-! Statements that use variables only after they have been assigned. -/

namespace Verif
open Py Spec

section
variable {P X W α β : Type}

theorem Shared.add_left {S : Shared} {σ : StateId} {K : Slot → Prop} : ∀ τ sl, S τ sl → S.add σ K τ sl := fun _ _ h => .inl h

theorem Shared.add_right {S : Shared} {σ : StateId} {K : Slot → Prop} : ∀ sl, K sl → S.add σ K σ sl := fun _ h => .inr ⟨rfl, h⟩

theorem Shared.add_sub {S T : Shared} {σ : StateId} {K : Slot → Prop} (h : ∀ τ sl, S τ sl → T τ sl) (hk : ∀ sl, K sl → T σ sl) :
    ∀ τ sl, S.add σ K τ sl → T τ sl := by
  rintro τ sl (k | ⟨rfl, k⟩)
  · exact h τ sl k
  · exact hk sl k

/-- Learning in two steps. -/
theorem Learns.add_bind {S : Shared} {σ : StateId} {K K' : Slot → Prop} {c : Comp P X W α} {f : α → Comp P X W β} (h : Learns S (S.add σ K) c)
    (hf : ∀ a, Learns (S.add σ K) ((S.add σ K).add σ K') (f a)) : Learns S (S.add σ (fun sl => K sl ∨ K' sl)) (c >>= f) :=
  (Learns.bind h hf Shared.add_left).sub (Shared.add_sub (fun _ _ k => .inl (.inl k)) (by
    rintro sl (k | k)
    · exact .inl (.inr ⟨rfl, k⟩)
    · exact .inr ⟨rfl, k⟩))

theorem Blind.add {S : Shared} {σ : StateId} {K : Slot → Prop} {c : Comp P X W α} (h : Blind S α c) (hk : ∀ sl, K sl → S σ sl) :
    Learns S (S.add σ K) c := Learns.sub h (Shared.add_sub (fun _ _ k => k) hk)

theorem Learns.blind {S : Shared} {σ : StateId} {K : Slot → Prop} {c : Comp P X W α} (h : Learns S (S.add σ K) c) : Blind S α c :=
  h.sub Shared.add_left

theorem setSlots_learns (S : Shared) (σ : StateId) (l : List (Slot × Val P)) :
    Learns S (S.add σ (· ∈ l.map Prod.fst)) (setSlots σ l : Comp P X W Unit) := by
  induction l generalizing S with
  | nil => exact Blind.add (Learns.pure ()) (by simp)
  | cons a l ih =>
    obtain ⟨sl, v⟩ := a
    refine (Learns.add_bind (setSlot_learns S σ sl v) (fun _ => ih _)).sub (Shared.add_sub Shared.add_left ?_)
    intro sl' h
    simp only [List.map_cons, List.mem_cons] at h
    exact Shared.add_right _ h

theorem translImport_learns (S : Shared) (σ : StateId) (i : ImportItem P) :
    Learns S (S.add σ (· ∈ importSlots i)) (translImport σ i : Comp P X W Unit) := by
  cases i with
  | wild slots =>
    cases slots with
    | none => exact .raise _
    | some l => exact setSlots_learns S σ l
  | name s r slot =>
    cases slot with
    | none => exact .raise _
    | some q => exact (setSlot_learns S σ q.1 q.2).sub (Shared.add_sub Shared.add_left (by simp [importSlots, Shared.add]))
  | cntx s r slot =>
    cases slot with
    | none => exact .raise _
    | some q => exact (setSlot_learns S σ q.1 q.2).sub (Shared.add_sub Shared.add_left (by simp [importSlots, Shared.add]))

theorem translImports_learns (S : Shared) (σ : StateId) (is : List (ImportItem P)) :
    Learns S (S.add σ (· ∈ is.flatMap importSlots)) (translImports σ is : Comp P X W Unit) := by
  induction is generalizing S with
  | nil => exact Blind.add (Learns.pure ()) (by simp)
  | cons i is ih =>
    refine (Learns.add_bind (translImport_learns S σ i) (fun _ => ih _)).sub (Shared.add_sub Shared.add_left ?_)
    intro sl h
    rw [List.flatMap_cons, List.mem_append] at h
    exact Shared.add_right _ h

variable {E : Env P X W} {K0 : Slot → Prop} (H : ∀ S : Shared, (∀ τ sl, K0 sl → S τ sl) → EnvBlind S E)
include H

mutual
theorem assignTarget_learns (σ : StateId) : ∀ (t : Target) (v : Val P) (S : Shared), (∀ τ sl, K0 sl → S τ sl) →
    Learns S (S.add σ (· ∈ targetSlots t)) (assignTarget E σ t v)
  | .var _ _ _ none, v, S, _ => by simp only [assignTarget]; exact .raise _
  | .var _ _ _ (some sl), v, S, _ => by
    simp only [assignTarget]
    exact (setSlot_learns S σ sl v).sub (Shared.add_sub Shared.add_left (by simp [targetSlots, Shared.add]))
  | .many [], v, S, h => by
    simp only [assignTarget]
    have F := (H S h).frame σ
    exact Blind.add (F.bind (F.py (by constructor)) (fun it => by simp only [unpackTargets]; exact F.unpackEnd it)) (by simp [targetSlots, targetSlotsAll])
  | .many [t], v, S, h => by
    simp only [assignTarget]
    exact (assignTarget_learns σ t v S h).sub (Shared.add_sub Shared.add_left (fun sl k => Shared.add_right _ (by simpa [targetSlots, targetSlotsAll] using k)))
  | .many (t1 :: t2 :: ts), v, S, h => by
    have F := (H S h).frame σ
    have ha : assignTarget E σ (.many (t1 :: t2 :: ts)) v =
        (runPy E (E.ops.iter v) >>= fun it => unpackTargets E σ (t1 :: t2 :: ts) it) := by
      rw [assignTarget]; simp
    rw [ha]
    exact Learns.after (F.py (by constructor)) (fun it => (unpackTargets_learns σ (t1 :: t2 :: ts) it S h).sub (by simp [targetSlots]))
theorem unpackTargets_learns (σ : StateId) : ∀ (ts : List Target) (it : Val P) (S : Shared), (∀ τ sl, K0 sl → S τ sl) →
    Learns S (S.add σ (· ∈ targetSlotsAll ts)) (unpackTargets E σ ts it)
  | [], it, S, h => by
    simp only [unpackTargets]
    exact Blind.add (((H S h).frame σ).unpackEnd it) (by simp [targetSlotsAll])
  | t :: ts, it, S, h => by
    simp only [unpackTargets]
    have F := (H S h).frame σ
    refine Learns.after (F.py (by constructor)) (fun o => ?_)
    cases o with
    | none => exact .raise _
    | some v =>
      refine (Learns.add_bind (assignTarget_learns σ t v S h) (fun _ => unpackTargets_learns σ ts it _ (fun τ sl k => .inl (h τ sl k)))).sub
        (Shared.add_sub Shared.add_left ?_)
      intro sl k
      rw [targetSlotsAll, List.mem_append] at k
      exact Shared.add_right _ k
end

omit H in
theorem Known.imp {K K' : Slot → Prop} (h : ∀ sl, K sl → K' sl) (o : Option Slot) (k : Known K o) : Known K' o := fun sl e => h sl (k sl e)

theorem translIf_learns {σ : StateId} {S T : Shared} (h : ∀ τ sl, K0 sl → S τ sl) {K : Slot → Prop} (hk : ∀ sl, K sl → S σ sl)
    (els : Option (Comp P X W (List Ref))) (he : Learns S T (optBranch els)) (cs : List (Expr × Option (Stmt P)))
    (hr : ∀ c ∈ cs, c.1.reads (Known K)) (hb : ∀ c ∈ cs, Learns S T (translBranch E σ c)) : Learns S T (translIf E σ cs els) := by
  have F := (H S h).frame σ
  induction cs with
  | nil => simp only [translIf]; exact he
  | cons c cs ih =>
    simp only [translIf]
    refine Learns.after (F.eval σ c.1 (Expr.reads_mono (Known.imp hk) _ (hr c (by simp)))) (fun v => Learns.after (F.truthOf v) (fun b => ?_))
    split
    · exact hb c (by simp)
    · exact ih (fun c' k => hr c' (by simp [k])) (fun c' k => hb c' (by simp [k]))

omit H in
theorem translEach_head (σ : StateId) (rest : List (Stmt P)) :
    (translEach E σ rest).head? = rest.head?.map (fun s => transl E σ s >>= fun a => pure (nodesOf a)) := by
  cases rest <;> rfl

omit H in
theorem translEach_map (σ : StateId) (rest : List (Stmt P)) :
    translEach E σ rest = rest.map (fun s => transl E σ s >>= fun a => pure (nodesOf a)) := by
  induction rest with
  | nil => rfl
  | cons s ss ih => simp only [translEach, List.map_cons, ih]

/-- Translation of such a statement does not depend on the values that its variables had before. -/
theorem sure_learns (σ : StateId) {K K' : Slot → Prop} {s : Stmt P} (hs : Sure K s K') :
    ∀ S : Shared, (∀ τ sl, K0 sl → S τ sl) → (∀ sl, K sl → S σ sl) →
      Learns S (S.add σ K') (transl E σ s) ∧ ∀ ss, s = .body ss → Learns S (S.add σ K') (translAll E σ ss) := by
  induction hs with
  | @any K s hr =>
    intro S h hk
    have F := (H S h).frame σ
    have hr := Stmt.reads_mono (Known.imp hk) _ hr
    refine ⟨Blind.add (F.transl s hr (Stmt.writes_of (fun _ => trivial) s) (fun k => absurd trivial k)) hk, ?_⟩
    rintro ss rfl
    simp only [Stmt.reads] at hr
    exact Blind.add (F.translAll trivial ss hr (Stmt.writesAll_of (fun _ => trivial) ss)) hk
  | weaken _ hw ih =>
    intro S h hk
    have h2 : ∀ τ sl, S.add σ _ τ sl → S.add σ _ τ sl := Shared.add_sub Shared.add_left (fun sl k => Shared.add_right _ (hw sl k))
    exact ⟨(ih S h hk).1.sub h2, fun ss e => ((ih S h hk).2 ss e).sub h2⟩
  | @assign K t op e hr ht =>
    intro S h hk
    have F := (H S h).frame σ
    refine ⟨?_, nofun⟩
    simp only [transl]
    refine Learns.after (F.eval σ e (Expr.reads_mono (Known.imp hk) _ hr)) (fun v =>
      Learns.after (F.inplace t (Target.reads_mono (Known.imp hk) _ ht) op v) (fun v => ?_))
    refine (Learns.first (assignTarget_learns H σ t v S h) (fun _ => Learns.pure _) Shared.add_left).sub (Shared.add_sub Shared.add_left ?_)
    rintro sl (k | k)
    · exact .inl (hk sl k)
    · exact Shared.add_right _ k
  | @defn K id n sl ba as b =>
    intro S h hk
    refine ⟨?_, nofun⟩
    simp only [transl]
    refine (Learns.first (setSlot_learns S σ sl _) (fun _ => Learns.pure _) Shared.add_left).sub (Shared.add_sub Shared.add_left ?_)
    rintro sl (k | k)
    · exact .inl (hk sl k)
    · simp only [List.mem_singleton] at k
      exact Shared.add_right _ k
  | @imports K c path items =>
    intro S h hk
    refine ⟨?_, nofun⟩
    simp only [transl]
    refine (Learns.first (translImports_learns S σ items) (fun _ => Learns.pure _) Shared.add_left).sub (Shared.add_sub Shared.add_left ?_)
    rintro sl (k | k)
    · exact .inl (hk sl k)
    · exact Shared.add_right _ k
  | @xblock K m mo b K' _ ih =>
    intro S h hk
    refine ⟨?_, nofun⟩
    simp only [transl]
    have F := (H S h).frame σ
    have F' := (H (S.add σ K') (fun τ sl k => .inl (h τ sl k))).frame σ
    exact Learns.after (F.translStatic m) (fun _ => Learns.first (ih S h hk).1 (fun _ => F'.bind (F'.finishBlock _ _ _) (fun _ => F'.pure _))
      Shared.add_left)
  | @struct K tags b K' _ ht ih =>
    intro S h hk
    refine ⟨?_, nofun⟩
    simp only [transl]
    have F' := (H (S.add σ K') (fun τ sl k => .inl (h τ sl k))).frame σ
    exact Learns.first (ih S h hk).1 (fun _ => F'.bind (F'.applyTags _
      (fun t k => TagExp.reads_mono (Known.imp Shared.add_right) t (ht t (List.mem_reverse.mp k))) _) (fun ns => F'.withIndent ns)) Shared.add_left
  | @nil K =>
    intro S h hk
    have k1 : Learns S (S.add σ K) (translAll E σ []) := by simp only [translAll]; exact Blind.add (Learns.pure _) hk
    refine ⟨?_, by rintro ss e; cases e; exact k1⟩
    simp only [transl]
    exact Learns.first (keepIndent_learns σ k1) (fun _ => Learns.pure _) Shared.add_left
  | @cons K s ss K' K'' _ _ ih1 ih2 =>
    intro S h hk
    have k1 : Learns S (S.add σ K'') (translAll E σ (s :: ss)) := by
      simp only [translAll]
      refine (Learns.bind (ih1 S h hk).1 (fun a => Learns.first ((ih2 (S.add σ K') (fun τ sl k => .inl (h τ sl k)) Shared.add_right).2 ss rfl)
        (fun _ => Learns.pure _) Shared.add_left) Shared.add_left).sub ?_
      exact Shared.add_sub (fun _ _ k => .inl (.inl k)) Shared.add_right
    refine ⟨?_, by rintro ss e; cases e; exact k1⟩
    simp only [transl]
    exact Learns.first (keepIndent_learns σ k1) (fun _ => Learns.pure _) Shared.add_left
  | @ifBlock K K' cs els hr hb he hn ih1 ih2 =>
    intro S h hk
    refine ⟨?_, nofun⟩
    simp only [transl]
    have F' := (H (S.add σ K') (fun τ sl k => .inl (h τ sl k))).frame σ
    have hpure : (els = none ∨ ∃ c ∈ cs, c.2 = none) → Learns S (S.add σ K') (pure [] : Comp P X W (List Ref)) :=
      fun k => Blind.add (Learns.pure _) (fun sl k' => hk sl (hn k sl k'))
    refine Learns.first (translIf_learns H h hk _ ?_ cs hr ?_) (fun ns => F'.withIndent ns) Shared.add_left
    · cases els with
      | none => exact hpure (.inl rfl)
      | some b => exact Learns.first (ih2 b rfl S h hk).1 (fun _ => Learns.pure _) Shared.add_left
    · rintro ⟨t, o⟩ hc
      simp only [translBranch]
      cases o with
      | none => exact hpure (.inr ⟨_, hc, rfl⟩)
      | some b => exact Learns.first (ih1 _ hc b rfl S h hk).1 (fun _ => Learns.pure _) Shared.add_left
  | @elseClause K K' b hb ih =>
    intro S h hk
    refine ⟨?_, nofun⟩
    simp only [transl]
    refine Learns.first ?_ (fun _ => Learns.pure _) Shared.add_left
    cases b with
    | none => exact .raise _
    | some s => exact Learns.first (ih s rfl S h hk).1 (fun _ => Learns.pure _) Shared.add_left
  | @whileBlock K t b els hr hb he ih1 ih2 =>
    intro S h hk
    refine ⟨?_, nofun⟩
    simp only [transl]
    have F := (H S h).frame σ
    refine Blind.add ?_ hk
    refine F.bind (F.whileLoop (F.bind (F.eval σ t (Expr.reads_mono (Known.imp hk) _ hr)) (fun v => F.truthOf v)) (F.optBranch _ ?_) _ _ _)
      (fun r => F.bind (F.loopResult r _ ?_) (fun ns => F.withIndent ns))
    · intro d hd
      cases b with
      | none => cases hd
      | some s =>
        cases hd
        exact F.bind (ih1 s rfl S h hk).1.blind (fun _ => F.pure _)
    · intro d hd
      cases els with
      | none => cases hd
      | some s =>
        cases hd
        exact F.bind (ih2 s rfl S h hk).1.blind (fun _ => F.pure _)
  | @forBlock K t e rest hr hb he ih1 ih2 =>
    intro S h hk
    refine ⟨?_, nofun⟩
    simp only [transl]
    have F := (H S h).frame σ
    refine Blind.add ?_ hk
    refine F.bind (F.eval σ e (Expr.reads_mono (Known.imp hk) _ hr)) (fun _ => F.bind (F.py (by constructor)) (fun _ =>
      F.bind (F.forLoop (F.py (by constructor)) (fun v => ?_) _ _ _) (fun r => F.bind (F.loopResult r _ ?_) (fun ns => F.withIndent ns))))
    · have h1 : ∀ τ sl, K0 sl → S.add σ (· ∈ targetSlots t) τ sl := fun τ sl k => .inl (h τ sl k)
      have F' := (H _ h1).frame σ
      refine Learns.bind (assignTarget_learns H σ t v S h) (fun _ => Learns.sub (S' := S.add σ (· ∈ targetSlots t)) ?_ Shared.add_left) Shared.add_left
      refine F'.optBranch _ (fun d hd => ?_)
      rw [translEach_head] at hd
      cases hh : rest.head? with
      | none => rw [hh] at hd; cases hd
      | some s =>
        rw [hh] at hd
        cases hd
        refine F'.bind (ih1 s hh (S.add σ (· ∈ targetSlots t)) h1 ?_).1.blind (fun _ => F'.pure _)
        rintro sl (k | k)
        · exact .inl (hk sl k)
        · exact Shared.add_right _ k
    · intro d hd
      unfold lastElse at hd
      split at hd
      · rename_i hl
        rw [translEach_map, List.getLast?_map] at hd
        cases hh : rest.getLast? with
        | none => rw [hh] at hd; cases hd
        | some s =>
          rw [hh] at hd hl
          cases hd
          cases s <;> simp only [Option.any_some, Stmt.isElse, Bool.false_eq_true] at hl
          exact F.bind (ih2 _ hh S h hk).1.blind (fun _ => F.pure _)
      · cases hd
  | @tryBlock K bs hb ih =>
    intro S h hk
    refine ⟨?_, nofun⟩
    simp only [transl]
    have F := (H S h).frame σ
    refine Blind.add ?_ hk
    refine F.bind (F.tryLoop (fun c hc => ?_)) (fun ns => F.withIndent ns)
    rw [translEach_map, List.mem_map] at hc
    obtain ⟨s, hs, rfl⟩ := hc
    exact F.bind (ih s hs S h hk).1.blind (fun _ => F.pure _)

end
end Verif
