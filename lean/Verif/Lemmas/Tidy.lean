import Verif.Lemmas.Sure

/-! Expansion of hypertags that use only their attributes and variables that they have assigned before. -/

namespace Verif
open Py Spec

section
variable {P X W α β : Type}

theorem Learns.bind_ok {S S1 S2 : Shared} {c : Comp P X W α} {f : α → Comp P X W β} (h : Learns S S1 c)
    (hf : ∀ a, (∃ M, (c M).1 = .ok a) → Learns S1 S2 (f a)) (h1 : ∀ τ sl, S τ sl → S1 τ sl) : Learns S S2 (c >>= f) := by
  intro M M' k
  obtain ⟨e, k1, k2⟩ := h M M' k
  rw [Comp.bind_run, Comp.bind_run]
  rcases hc : c M with ⟨r, N⟩
  rcases hc' : c M' with ⟨r', N'⟩
  rw [hc, hc'] at e k1 k2
  simp only at e k1 k2
  subst e
  cases r with
  | ok a =>
    obtain ⟨e1, j1, j2⟩ := hf a ⟨M, by rw [hc]⟩ N N' (k2 a rfl)
    exact ⟨e1, j1.sub h1, j2⟩
  | raise x => exact ⟨rfl, k1, fun a h => nomatch h⟩
  | timeout => exact ⟨rfl, k1, fun a h => nomatch h⟩

theorem bindDefaults_keys {E : Env P X W} {σ : StateId} (as : List AttrDef) : ∀ (kw kw2 : Dict Str (Val P)) (M : Machine P W),
    (bindDefaults E σ as kw M).1 = .ok kw2 → (∀ n, n ∈ Dict.keys kw → n ∈ Dict.keys kw2) ∧ ∀ a ∈ as, a.name ∈ Dict.keys kw2 := by
  induction as with
  | nil =>
    intro kw kw2 M h
    cases h
    exact ⟨fun _ k => k, nofun⟩
  | cons a as ih =>
    intro kw kw2 M h
    simp only [bindDefaults] at h
    split at h
    · rename_i hs
      obtain ⟨k1, k2⟩ := ih kw kw2 M h
      refine ⟨k1, fun b hb => ?_⟩
      rcases List.mem_cons.1 hb with rfl | hb
      · exact k1 _ ((Dict.get?_isSome_iff _ _).1 hs)
      · exact k2 b hb
    · cases hdf : a.default with
      | none => rw [hdf] at h; cases h
      | some e =>
        rw [hdf] at h
        simp only at h
        rw [Comp.bind_run] at h
        rcases he : eval E σ e M with ⟨r, N⟩
        rw [he] at h
        cases r with
        | ok v =>
          obtain ⟨k1, k2⟩ := ih _ kw2 N h
          have hk : ∀ n, n ∈ Dict.keys (Dict.set kw a.name v) ↔ (n ∈ Dict.keys kw ∨ n = a.name) := by
            intro n
            rw [Dict.keys_set]
            split
            · rename_i hm
              exact ⟨.inl, fun k => k.elim id (fun e => e ▸ hm)⟩
            · simp
          refine ⟨fun n hn => k1 n ((hk n).2 (.inl hn)), fun b hb => ?_⟩
          rcases List.mem_cons.1 hb with rfl | hb
          · exact k1 _ ((hk _).2 (.inr rfl))
          · exact k2 b hb
        | raise x => cases h
        | timeout => cases h

theorem assignAttr_learns (S : Shared) (σ : StateId) (slot : Option Slot) (v : Val P) :
    Learns S (S.add σ (fun sl => slot = some sl)) (assignAttr σ slot v : Comp P X W Unit) := by
  cases slot with
  | none => exact .raise _
  | some sl => exact (setSlot_learns S σ sl v).sub (Shared.add_sub Shared.add_left (fun sl' k => Shared.add_right _ (Option.some.inj k).symm))

theorem find_attr {attrs : List AttrDef} (hd : (attrs.map AttrDef.name).Nodup) {a : AttrDef} (ha : a ∈ attrs) :
    attrs.find? (fun b => decide (b.name = a.name)) = some a := by
  induction attrs with
  | nil => cases ha
  | cons b bs ih =>
    simp only [List.map_cons, List.nodup_cons] at hd
    rw [List.find?_cons]
    by_cases hn : b.name = a.name
    · simp only [hn, decide_true]
      rcases List.mem_cons.1 ha with rfl | hb
      · rfl
      · exact absurd (hn ▸ List.mem_map_of_mem hb) hd.1
    · simp only [hn, decide_false]
      rcases List.mem_cons.1 ha with rfl | hb
      · exact absurd rfl hn
      · exact ih hd.2 hb

theorem assignAttrs_learns (σ : StateId) {attrs : List AttrDef} (hd : (attrs.map AttrDef.name).Nodup) (l : List (Str × Val P)) : ∀ S : Shared,
    Learns S (S.add σ (fun sl => ∃ a ∈ attrs, a.name ∈ Dict.keys l ∧ a.slot = some sl)) (assignAttrs σ attrs l : Comp P X W Unit) := by
  induction l with
  | nil => exact fun S => Blind.add (Learns.pure ()) (by simp [Dict.keys])
  | cons q l ih =>
    obtain ⟨n, v⟩ := q
    intro S
    simp only [assignAttrs]
    cases hf : attrs.find? (fun a => decide (a.name = n)) with
    | none => exact Learns.bind (S1 := S) (.raise _) (fun _ => (ih S)|>.sub (by
        refine Shared.add_sub Shared.add_left ?_
        rintro sl ⟨a, ha, hk, hs⟩
        rcases List.mem_cons.1 hk with hk | hk
        · have := find_attr hd ha
          simp only at hk
          rw [hk, hf] at this
          cases this
        · exact Shared.add_right _ ⟨a, ha, hk, hs⟩)) (fun _ _ k => k)
    | some b =>
      refine (Learns.add_bind (assignAttr_learns S σ b.slot v) (fun _ => ih _)).sub (Shared.add_sub Shared.add_left ?_)
      rintro sl ⟨a, ha, hk, hs⟩
      refine Shared.add_right _ ?_
      rcases List.mem_cons.1 hk with hk | hk
      · have := find_attr hd ha
        simp only at hk
        rw [hk, hf] at this
        cases this
        exact .inl hs
      · exact .inr ⟨a, ha, hk, hs⟩

variable {E : Env P X W} {K : Slot → Prop} (H : ∀ S : Shared, (∀ τ sl, K sl → S τ sl) → EnvBlind S E)
include H

theorem assignBody_learns (σ : StateId) (a : Option AttrDef) (body : Val P) (S : Shared) (h : ∀ τ sl, K sl → S τ sl) :
    Learns S (S.add σ (fun sl => ∃ b, a = some b ∧ b.slot = some sl)) (assignBody E σ a body) := by
  have F := (H S h).frame σ
  cases a with
  | none => exact Blind.add (F.bind (F.truthOf body) (fun _ => F.ite (F.raise _ nofun) (F.pure _))) (by simp)
  | some b => exact (assignAttr_learns S σ b.slot body).sub (Shared.add_sub Shared.add_left (by
      rintro sl ⟨_, e, k⟩
      cases e
      exact Shared.add_right _ k))

theorem appendAttrs_learns (σ : StateId) {d : DefInfo P} (hd : Tidy K d) (body : Val P) (as : List (Val P)) (kw : Dict Str (Val P))
    (S : Shared) (h : ∀ τ sl, K sl → S τ sl) : Learns S (S.add σ (· ∈ paramSlots d)) (appendAttrs E σ d body as kw) := by
  have F := (H S h).frame σ
  simp only [appendAttrs]
  split
  · exact .raise _
  split
  · exact .raise _
  split
  · exact .raise _
  cases bindPositional d.attrs as kw with
  | none => exact .raise _
  | some kw1 =>
    refine Learns.bind_ok (S1 := S) (F.bindDefaults _ (fun a ha => Expr.readsOpt_mono (Known.imp (h σ)) _ (hd.defaults a ha)) kw1) ?_ (fun _ _ k => k)
    rintro kw2 ⟨M, hM⟩
    have hk := (bindDefaults_keys d.attrs kw1 kw2 M hM).2
    refine (Learns.add_bind (assignAttrs_learns σ hd.distinct kw2 S) (fun _ => Learns.first (assignBody_learns H σ d.bodyAttr body _
      (fun τ sl k => .inl (h τ sl k))) (fun _ => Learns.pure _) Shared.add_left)).sub (Shared.add_sub Shared.add_left ?_)
    intro sl hs
    refine Shared.add_right _ ?_
    simp only [paramSlots, List.mem_filterMap, List.mem_append, Option.mem_toList] at hs
    obtain ⟨a, ha | ha, e⟩ := hs
    · exact .inr ⟨a, ha, e⟩
    · exact .inl ⟨a, ha, hk a ha, e⟩

theorem expandDef_blind (σ : StateId) (id : DefId) {d : DefInfo P} (hd : Tidy K d) (body : Val P) (as : List (Val P)) (kw : Dict Str (Val P))
    (S : Shared) (h : ∀ τ sl, K sl → S τ sl) : Blind S _ (expandDef E id d body as kw σ) := by
  have h1 : ∀ τ sl, K sl → S.add σ (· ∈ paramSlots d) τ sl := fun τ sl k => .inl (h τ sl k)
  have F := (H _ h1).frame σ
  refine Learns.sub (S' := S.add σ (· ∈ paramSlots d)) ?_ Shared.add_left
  refine Learns.first (appendAttrs_learns H σ hd body as kw S h) (fun da => ?_) Shared.add_left
  refine F.bind (sure_learns H σ hd.uses _ h1 ?_).1.blind (fun _ => F.bind (F.curIndent σ) (fun _ => F.bind (F.setIndent _ _) (fun _ =>
      F.bind (F.firstInline _) (fun _ => F.bind (F.newNode _ _ _ _ _ _) (fun _ => F.pure _)))))
  rintro sl (k | k)
  · exact .inl (h σ sl k)
  · exact Shared.add_right _ k

end

section
variable {P X W : Type}

/-- Expansion of hypertags gives the same results whenever the variables in `K` have the same values. -/
theorem envAt_blind (ops : PyOps P X W) (Γ : DefId → DefInfo P) {K : Slot → Prop} (hΓ : ∀ id, Tidy K (Γ id)) (n : Nat) :
    ∀ S : Shared, (∀ τ sl, K sl → S τ sl) → EnvBlind S (envAt ops Γ n) := by
  induction n with
  | zero => exact fun S _ => ⟨fun _ _ _ _ _ _ _ k => ⟨rfl, k, fun _ h => nomatch h⟩, fun _ _ _ k => ⟨rfl, k, fun _ h => nomatch h⟩⟩
  | succ n ih =>
    intro S hS
    refine ⟨fun hv b as kw σ => ?_, fun c => ?_⟩
    · show Blind S _ (expandHyper (envAt ops Γ n) Γ hv b as kw σ)
      induction hv generalizing σ with
      | imported hv st ih' => exact ih' st
      | defn id => exact expandDef_blind ih σ id (hΓ id) b as kw S hS
    · have F := (ih S hS).closed
      refine F.bind ?_ (fun body => F.bind ((ih S hS).expand _ _ _ _ _) (fun dom => F.bind (F.setIndent _ _)
        (fun _ => F.bind (F.py (by constructor)) (fun _ => F.pure _))))
      cases c.body <;> first
        | exact F.pure _
        | exact F.bind (F.strOf _) (fun _ => F.bind (F.newText _ _) (fun _ => F.pure _))

end
end Verif
