import Verif.Lemmas.ReslotAnalyse

/-! Contexts in which the symbols of the script have different slots. -/

set_option linter.unusedSectionVars false

namespace Verif
open Py Spec

section
variable {P I α β γ δ : Type}

/-- Contexts `c` and `c'` that were `g` and `g'` in the beginning: the symbols added since then have corresponding
slots, from `n0` on. -/
structure Ctx.Seat (f : Slot → Slot) (p : Str → Prop) (n0 : Slot) (E : Prop) (g g' : List (Str × SlotInfo)) (c c' : Ctx) : Prop where
  binds : ∃ r, c.binds = g ++ r ∧ c'.binds = g' ++ reslotBinds f r ∧ ∀ x ∈ r, p x.1 ∧ n0 ≤ x.2.id
  regular : c'.regular = c.regular
  control : c'.control = c.control
  hypertag : c'.hypertag = c.hypertag
  prolog : E → c'.prolog = c.prolog
  next : c'.next = f c.next
  step : ∀ n, c.next ≤ n → f (n + 1) = f n + 1
  least : n0 ≤ c.next
  below : ∀ x ∈ c.binds, x.2.id < c.next

/-- The slots of the symbols of the script that are in the contexts in the beginning. -/
structure Seating (f : Slot → Slot) (p : Str → Prop) (n0 : Slot) (g g' : List (Str × SlotInfo)) : Prop where
  base : ∀ y, p y → lookupBind g' y = (lookupBind g y).map (SlotInfo.reslot f)
  outer : 0 < n0 → ∀ x ∈ g, x.2.depth = 0

/-- A later context on the same level. -/
def Ctx.Onward (z c : Ctx) : Prop := z.next ≤ c.next ∧ c.regular = z.regular

theorem Ctx.Onward.refl (c : Ctx) : c.Onward c := ⟨Nat.le_refl _, rfl⟩
theorem Ctx.Onward.trans {a b c : Ctx} (h : a.Onward b) (h' : b.Onward c) : a.Onward c := ⟨Nat.le_trans h.1 h'.1, h'.2.trans h.2⟩

/-- The same error, or results that correspond by `φ` in contexts that correspond. -/
def Seated (f : Slot → Slot) (p : Str → Prop) (n0 : Slot) (E : Prop) (g g' : List (Str × SlotInfo)) (z : Ctx) (φ : α → β) (Q : Slot → α → Prop)
    (r : Except (AErr I) (α × Ctx)) (r' : Except (AErr I) (β × Ctx)) : Prop :=
  (∃ e, r = .error e ∧ r' = .error e) ∨
    ∃ a c c', r = .ok (a, c) ∧ r' = .ok (φ a, c') ∧ Ctx.Seat f p n0 E g g' c c' ∧ z.Onward c ∧ Q c.next a

section
variable {f : Slot → Slot} {p : Str → Prop} {n0 : Slot} {E : Prop} {g g' : List (Str × SlotInfo)} {z : Ctx}

local notation "Ss" => Ctx.Seat f p n0 E g g'
local notation "Sd" => Seated f p n0 E g g'

theorem Seated.pure {φ : α → β} {Q : Slot → α → Prop} {a : α} {b : β} {c c' : Ctx} (hc : Ss c c') (hn : z.Onward c) (h : b = φ a) (hq : Q c.next a) :
    Sd z φ Q (Pure.pure (a, c) : Except (AErr I) _) (Pure.pure (b, c')) := .inr ⟨a, c, c', rfl, by rw [h]; rfl, hc, hn, hq⟩

theorem Seated.error {φ : α → β} {Q : Slot → α → Prop} {e : AErr I} : Sd z φ Q (.error e : Except (AErr I) (α × Ctx)) (.error e) := .inl ⟨e, rfl, rfl⟩

theorem Seated.bind {φ : α → β} {ψ : γ → δ} {Q : Slot → α → Prop} {R : Slot → γ → Prop} {r : Except (AErr I) (α × Ctx)} {r' : Except (AErr I) (β × Ctx)}
    {k : α × Ctx → Except (AErr I) (γ × Ctx)} {k' : β × Ctx → Except (AErr I) (δ × Ctx)}
    (h : Sd z φ Q r r') (hk : ∀ a c c', Ss c c' → z.Onward c → Q c.next a → Sd z ψ R (k (a, c)) (k' (φ a, c'))) :
    Sd z ψ R (r >>= k) (r' >>= k') := by
  rcases h with ⟨e, rfl, rfl⟩ | ⟨a, c, c', rfl, rfl, hc, hn, hq⟩
  · exact .inl ⟨e, rfl, rfl⟩
  · exact hk a c c' hc hn hq

theorem Seated.le {φ : α → β} {Q : Slot → α → Prop} {z' : Ctx} {r : Except (AErr I) (α × Ctx)} {r' : Except (AErr I) (β × Ctx)}
    (h : Sd z' φ Q r r') (hn : z.Onward z') : Sd z φ Q r r' := by
  rcases h with h | ⟨a, c, c', h1, h2, h3, h4, h5⟩
  · exact .inl h
  · exact .inr ⟨a, c, c', h1, h2, h3, hn.trans h4, h5⟩

/-- What is known of the result holds in the final context too: `Q` is inherited by larger numbers. -/
theorem Seated.bind_le {φ : α → β} {ψ : γ → δ} {Q : Slot → α → Prop} {R : Slot → γ → Prop} {r : Except (AErr I) (α × Ctx)}
    {r' : Except (AErr I) (β × Ctx)} {k : α × Ctx → Except (AErr I) (γ × Ctx)} {k' : β × Ctx → Except (AErr I) (δ × Ctx)}
    (h : Sd z φ Q r r') (hk : ∀ a c c', Ss c c' → Q c.next a → Sd c ψ R (k (a, c)) (k' (φ a, c'))) :
    Sd z ψ R (r >>= k) (r' >>= k') := h.bind (fun a c c' hc hn hq => (hk a c c' hc hq).le hn)

/-- When the context is only read. -/
theorem Seated.first {φ : α → β} {ψ : γ → δ} {Q : α → Prop} {R : Slot → γ → Prop} {r : Except (AErr I) α} {r' : Except (AErr I) β}
    {k : α → Except (AErr I) (γ × Ctx)} {k' : β → Except (AErr I) (δ × Ctx)}
    (h : Mapped φ Q r r') (hk : ∀ a, Q a → Sd z ψ R (k a) (k' (φ a))) : Sd z ψ R (r >>= k) (r' >>= k') := by
  rcases h with ⟨e, rfl, rfl⟩ | ⟨a, rfl, rfl, hq⟩
  · exact .inl ⟨e, rfl, rfl⟩
  · exact hk a hq

theorem Mapped.same {Q : α → Prop} {r : Except (AErr I) α} (h : Post Q r) : Mapped id Q r r := by
  cases r with
  | error e => exact .inl ⟨e, rfl, rfl⟩
  | ok a => exact .inr ⟨a, rfl, rfl, h a rfl⟩

section
variable (hS : Seating f p n0 g g')
include hS

theorem Ctx.Seat.lookup {c c' : Ctx} (hc : Ss c c') {y : Str} (h : p y) : lookupBind c'.binds y = (lookupBind c.binds y).map (SlotInfo.reslot f) := by
  obtain ⟨r, h1, h2, _⟩ := hc.binds
  rw [h1, h2, lookupBind_app, lookupBind_app, lookupBind_reslot, hS.base y h]
  cases lookupBind r y <;> rfl

/-- A symbol that is not in the first context has a slot from `n0` on. -/
theorem Ctx.Seat.fresh {c c' : Ctx} (hc : Ss c c') {y : Str} {s : SlotInfo} (h : lookupBind c.binds y = some s)
    (hy : s.depth = 0 → 0 < n0 → y ∉ g.map Prod.fst) : n0 ≤ s.id := by
  obtain ⟨r, h1, h2, h3⟩ := hc.binds
  rw [h1, lookupBind_app] at h
  cases hr : lookupBind r y with
  | some s' =>
    rw [hr] at h
    cases h
    exact (h3 _ (lookupBind_mem hr)).2
  | none =>
    rw [hr] at h
    have hm := lookupBind_mem (show lookupBind g y = some s from h)
    rcases Nat.eq_zero_or_pos n0 with h0 | h0
    · rw [h0]; exact Nat.zero_le _
    · exact absurd (List.mem_map_of_mem (f := Prod.fst) hm) (hy (hS.outer h0 _ hm) h0)

theorem newSlot_seated {c c' : Ctx} (hc : Ss c c') {y : Str} (w : p y) :
    Sd c (SlotInfo.reslot f) (fun m s => n0 ≤ s.id ∧ s.id < m) (newSlot c y : Except (AErr I) _) (newSlot c' y) := by
  unfold newSlot
  split
  · obtain ⟨r, h1, h2, h3⟩ := hc.binds
    refine .inr ⟨{ id := c.next, depth := c.regular }, { c.push y { id := c.next, depth := c.regular } with next := c.next + 1 },
      { c'.push y { id := c'.next, depth := c'.regular } with next := c'.next + 1 }, rfl, ?_,
      ⟨⟨r ++ [(y, { id := c.next, depth := c.regular })], ?_, ?_, ?_⟩, hc.regular, hc.control, hc.hypertag, hc.prolog, ?_,
        fun n hn => hc.step n (Nat.le_of_succ_le hn), ?_, ?_⟩, ?_, hc.least, ?_⟩
    · rw [show SlotInfo.reslot f { id := c.next, depth := c.regular } = { id := c'.next, depth := c'.regular } by rw [hc.next, hc.regular]; rfl]
    · simp only [Ctx.push, h1, List.append_assoc]
    · simp only [Ctx.push, h2, List.append_assoc, reslotBinds, List.map_append, List.map_cons, List.map_nil, SlotInfo.reslot, hc.next, hc.regular]
    · intro x hx
      rcases List.mem_append.1 hx with hx | hx
      · exact h3 x hx
      · rw [List.mem_singleton.1 hx]; exact ⟨w, hc.least⟩
    · show c'.next + 1 = f (c.next + 1)
      rw [hc.step _ (Nat.le_refl _), hc.next]
    · exact Nat.le_succ_of_le hc.least
    · intro x hx
      simp only [Ctx.push, List.mem_append, List.mem_singleton] at hx
      rcases hx with hx | rfl
      · exact Nat.lt_succ_of_lt (hc.below x hx)
      · exact Nat.lt_succ_self _
    · exact ⟨Nat.le_succ _, rfl⟩
    · exact Nat.lt_succ_self _
  · exact .error

theorem declare_seated {c c' : Ctx} (hc : Ss c c') {y : Str} (w : p y) :
    Sd c (SlotInfo.reslot f) (fun m s => n0 ≤ s.id ∧ s.id < m) (declare c y : Except (AErr I) _) (declare c' y) := by
  unfold declare
  refine (newSlot_seated hS hc w).bind (fun s c1 c1' h1 hn hs => .pure ⟨?_, h1.regular, h1.control, h1.hypertag, h1.prolog, h1.next, h1.step, h1.least, ?_⟩ hn rfl hs)
  · obtain ⟨r, k1, k2, k3⟩ := h1.binds
    refine ⟨r ++ [(y, s)], by simp only [Ctx.push, k1, List.append_assoc], by
      simp only [Ctx.push, k2, List.append_assoc, reslotBinds, List.map_append, List.map_cons, List.map_nil], ?_⟩
    intro x hx
    rcases List.mem_append.1 hx with hx | hx
    · exact k3 x hx
    · rw [List.mem_singleton.1 hx]; exact ⟨w, hs.1⟩
  · intro x hx
    simp only [Ctx.push, List.mem_append, List.mem_singleton] at hx
    rcases hx with hx | rfl
    · exact h1.below x hx
    · exact hs.2

theorem writeSlot_seated {c c' : Ctx} (hc : Ss c c') {y : Str} (w : p y) (hy : c.regular = 0 → 0 < n0 → y ∉ g.map Prod.fst) :
    Sd c (SlotInfo.reslot f) (fun m s => n0 ≤ s.id ∧ s.id < m) (writeSlot c y : Except (AErr I) _) (writeSlot c' y) := by
  unfold writeSlot
  have e : c'.get y = (c.get y).map (SlotInfo.reslot f) := hc.lookup hS w
  rw [e]
  cases hg : c.get y with
  | none => exact declare_seated hS hc w
  | some s =>
    show Sd _ _ _ (if s.depth = c.regular then .ok (s, c) else declare c y) (if s.depth = c'.regular then .ok (s.reslot f, c') else declare c' y)
    rw [hc.regular]
    split
    · rename_i hd
      exact .inr ⟨s, c, c', rfl, rfl, hc, .refl _, hc.fresh hS hg (fun h0 => hy (hd ▸ h0)), hc.below _ (lookupBind_mem hg)⟩
    · exact declare_seated hS hc w

theorem readSlot_seated {c c' : Ctx} (hc : Ss c c') {y : Str} (read : Bool) (w : p y) :
    Mapped (Option.map f) (fun o => ∀ h, Holds c.next h → o.map h = o) (readSlot c read y : Except (AErr I) _) (readSlot c' read y) := by
  unfold readSlot
  cases read with
  | true => exact resolve_maps (fun y hy => hc.lookup hS hy) hc.below w _
  | false => exact .inr ⟨none, rfl, rfl, fun _ _ => rfl⟩

omit hS in
theorem late_some {m s : Slot} (h : m ≤ s) : Late m (some s) := fun sl e => by cases e; exact h

mutual
theorem analyseTarget_seated : ∀ (t : Target) (c c' : Ctx), Ss c c' → t.onlyNames p → (c.regular = 0 → ∀ y ∈ t.defines, 0 < n0 → y ∉ g.map Prod.fst) →
    Sd c (Target.reslot f) (fun m t => t.writes (Late n0) ∧ ∀ h, Holds m h → t.reslot h = t)
      (analyseTarget t c : Except (AErr I) _) (analyseTarget t c')
  | .var name read _ _, c, c', hc, w, hd => by
    simp only [Target.onlyNames] at w
    simp only [Target.defines, List.mem_singleton, forall_eq] at hd
    simp only [analyseTarget]
    refine .first (readSlot_seated hS hc read w) (fun o ho => (writeSlot_seated hS hc w hd).bind (fun s c1 c1' k1 hn hs =>
      .pure k1 hn (by simp only [Target.reslot]; rfl) ⟨by simp only [Target.writes]; exact late_some hs.1, fun h hh => ?_⟩))
    simp only [Target.reslot, Option.map_some]
    rw [ho h (hh.le hn.1), hh _ hs.2]
  | .many ts, c, c', hc, w, hd => by
    simp only [Target.onlyNames] at w
    simp only [Target.defines] at hd
    simp only [analyseTarget]
    refine (analyseTargets_seated ts c c' hc w hd).bind (fun ts' c1 c1' k1 hn h => .pure k1 hn (by simp only [Target.reslot]) ⟨?_, fun h' hh => ?_⟩)
    · simp only [Target.writes]; exact h.1
    · simp only [Target.reslot]; rw [h.2 h' hh]
theorem analyseTargets_seated : ∀ (ts : List Target) (c c' : Ctx), Ss c c' → Target.onlyNamesAll p ts →
    (c.regular = 0 → ∀ y ∈ Target.definesAll ts, 0 < n0 → y ∉ g.map Prod.fst) →
    Sd c (Target.reslotAll f) (fun m t => Target.writesAll (Late n0) t ∧ ∀ h, Holds m h → Target.reslotAll h t = t)
      (analyseTargets ts c : Except (AErr I) _) (analyseTargets ts c')
  | [], c, c', hc, w, hd => by
    simp only [analyseTargets]
    exact .pure hc (.refl _) (by simp only [Target.reslotAll]) ⟨by simp only [Target.writesAll], fun _ _ => by simp only [Target.reslotAll]⟩
  | t :: ts, c, c', hc, w, hd => by
    simp only [Target.onlyNamesAll] at w
    simp only [Target.definesAll, List.mem_append] at hd
    simp only [analyseTargets]
    refine (analyseTarget_seated t c c' hc w.1 (fun h y hy => hd h y (.inl hy))).bind (fun t' c1 c1' k1 hn h => ?_)
    refine Seated.le ?_ hn
    refine (analyseTargets_seated ts c1 c1' k1 w.2 (fun e y hy => hd (hn.2 ▸ e) y (.inr hy))).bind (fun ts' c2 c2' k2 hn2 h' =>
      .pure k2 hn2 (by simp only [Target.reslotAll]) ⟨by simp only [Target.writesAll]; exact ⟨h.1, h'.1⟩, fun g hg => ?_⟩)
    simp only [Target.reslotAll]
    rw [h.2 g (hg.le hn2.1), h'.2 g hg]
end

/-! ### Parameters and imports -/

theorem declareAttrs_seated (as : List AttrDef) (w : ∀ a ∈ as, p ('$' :: a.name)) : ∀ c c' : Ctx, Ss c c' →
    (∀ h, Holds c.next h → ∀ a ∈ as, Expr.reslotOpt h a.default = a.default) →
    Sd c (List.map (AttrDef.reslot f)) (fun m l => (∀ a ∈ l, Late n0 a.slot) ∧ ∀ h, Holds m h → l.map (AttrDef.reslot h) = l)
      (declareAttrs as c : Except (AErr I) _) (declareAttrs (as.map (fun a => { a with default := Expr.reslotOpt f a.default })) c') := by
  induction as with
  | nil => exact fun c c' hc _ => .pure hc (.refl _) rfl ⟨by simp, fun _ _ => rfl⟩
  | cons a as ih =>
    intro c c' hc hf
    simp only [List.map_cons, declareAttrs]
    refine (declare_seated hS hc (w a (by simp))).bind (fun s c1 c1' k1 hn hs => ?_)
    refine Seated.le ?_ hn
    refine (ih (fun j hj => w j (by simp [hj])) c1 c1' k1 (fun h hh j hj => hf h (hh.le hn.1) j (by simp [hj]))).bind (fun l c2 c2' k2 hn2 h =>
      .pure k2 hn2 rfl ⟨?_, fun g hg => ?_⟩)
    · intro j hj
      rcases List.mem_cons.1 hj with rfl | hj
      · exact late_some hs.1
      · exact h.1 j hj
    · rw [List.map_cons, h.2 g hg]
      simp only [AttrDef.reslot, Option.map_some]
      rw [hf g (hg.le (Nat.le_trans hn.1 hn2.1)) a (by simp), hg _ (Nat.lt_of_lt_of_le hs.2 hn2.1)]

theorem valueSlots_seated (l : List (Str × Val P)) (w : ∀ x ∈ l, p x.1) : ∀ c c' : Ctx, Ss c c' →
    Sd c (List.map (fun x => (x.1, f x.2.1, x.2.2))) (fun m l => ∀ x ∈ l, n0 ≤ x.2.1 ∧ x.2.1 < m)
      (valueSlots l c : Except (AErr I) _) (valueSlots l c') := by
  induction l with
  | nil => exact fun c c' hc => .pure hc (.refl _) rfl (by simp)
  | cons a l ih =>
    obtain ⟨sym, v⟩ := a
    intro c c' hc
    simp only [valueSlots]
    refine (newSlot_seated hS hc (w (sym, v) (by simp))).bind (fun s c1 c1' k1 hn hs => ?_)
    refine Seated.le ?_ hn
    refine (ih (fun x hm => w x (by simp [hm])) c1 c1' k1).bind (fun l c2 c2' k2 hn2 h => .pure k2 hn2 rfl ?_)
    intro x hx
    rcases List.mem_cons.1 hx with rfl | hx
    · exact ⟨hs.1, Nat.lt_of_lt_of_le hs.2 hn2.1⟩
    · exact h x hx

theorem analyseImport_seated (src : Source P I) (path : Option Str) (i : ImportItem P) (w : i.onlyNames src path p) (c c' : Ctx) (hc : Ss c c') :
    Sd c (ImportItem.reslot f) (fun m i => i.writes (Late n0) ∧ ∀ h, Holds m h → i.reslot h = i)
      (analyseImport src path i c) (analyseImport src path i c') := by
  cases i with
  | wild s =>
    simp only [analyseImport]
    have hw : Post (fun r : Dict Str (Val P) × StateId => ∀ y ∈ (r.1.map Prod.fst).filter (fun s => s[1]? ≠ some '_'), p y) (loadModule src path) := by
      unfold loadModule
      simp only [ImportItem.onlyNames, wildNames] at w
      cases hp : src.modules path with
      | error x => exact .error
      | ok r => rw [hp] at w; exact .ok w
    refine .first (.same hw) ?_
    rintro ⟨symbols, st⟩ hw
    refine .first (.same (publicSymbols_names st symbols)) (fun pub hpub => ?_)
    refine (valueSlots_seated hS pub (fun x h => hw _ (hpub x h)) c c' hc).bind (fun l c1 c1' k1 hn h => .pure k1 hn ?_ ⟨?_, fun g hg => ?_⟩)
    · simp only [ImportItem.reslot, Option.map_some, List.map_map]; rfl
    · intro o ho
      simp only [wildSlots, List.map_map, List.mem_map] at ho
      obtain ⟨x, hx, rfl⟩ := ho
      exact late_some (h x hx).1
    · simp only [ImportItem.reslot, Option.map_some, List.map_map]
      congr 2
      refine List.map_congr_left (fun x hx => ?_)
      simp only [Function.comp]
      rw [hg _ (h x hx).2]
  | name sym ren s =>
    simp only [analyseImport]
    split
    · exact .error
    · refine .first (.same (Post.any _)) ?_
      rintro ⟨symbols, st⟩ _
      simp only [id]
      cases Dict.get? symbols sym with
      | none => exact .error
      | some v =>
        refine (newSlot_seated hS hc (y := renamed sym ren) (by cases ren <;> exact w)).bind (fun s c1 c1' k1 hn hs =>
          .pure k1 hn rfl ⟨late_some hs.1, fun g hg => ?_⟩)
        simp only [ImportItem.reslot, Option.map_some]
        rw [hg _ hs.2]
  | cntx sym ren s =>
    simp only [analyseImport]
    cases Dict.get? src.context sym with
    | none => exact .error
    | some v =>
      refine (newSlot_seated hS hc (y := renamed sym ren) (by cases ren <;> exact w.2)).bind (fun s c1 c1' k1 hn hs =>
        .pure k1 hn rfl ⟨late_some hs.1, fun g hg => ?_⟩)
      simp only [ImportItem.reslot, Option.map_some]
      rw [hg _ hs.2]

theorem analyseImports_seated (src : Source P I) (path : Option Str) (is : List (ImportItem P)) (w : ∀ i ∈ is, i.onlyNames src path p) :
    ∀ c c' : Ctx, Ss c c' → Sd c (List.map (ImportItem.reslot f))
      (fun m l => (∀ i ∈ l, i.writes (Late n0)) ∧ ∀ h, Holds m h → l.map (ImportItem.reslot h) = l)
      (analyseImports src path is c) (analyseImports src path is c') := by
  induction is with
  | nil => exact fun c c' hc => .pure hc (.refl _) rfl ⟨by simp, fun _ _ => rfl⟩
  | cons i is ih =>
    intro c c' hc
    simp only [analyseImports]
    refine (analyseImport_seated hS src path i (w i (by simp)) c c' hc).bind (fun i' c1 c1' k1 hn h => ?_)
    refine Seated.le ?_ hn
    refine (ih (fun x hm => w x (by simp [hm])) c1 c1' k1).bind (fun l c2 c2' k2 hn2 h' => .pure k2 hn2 rfl ⟨?_, fun g hg => ?_⟩)
    · intro j hj
      rcases List.mem_cons.1 hj with rfl | hj
      · exact h.1
      · exact h'.1 j hj
    · rw [List.map_cons, h.2 g (hg.le hn2.1), h'.2 g hg]

/-! ### Ends of blocks -/

omit hS in
theorem leave_seat {c0 c0' c c' : Ctx} (h0 : Ss c0 c0') (h : Ss c c') : Ss (c0.leave c) (c0'.leave c') := by
  obtain ⟨r0, a1, a2, a3⟩ := h0.binds
  obtain ⟨r, b1, b2, b3⟩ := h.binds
  refine ⟨⟨r.take r0.length, ?_, ?_, fun x hx => b3 x (List.mem_of_mem_take hx)⟩, h0.regular, h.control, h0.hypertag, h.prolog, h.next, h.step, h.least,
    fun x hx => h.below x (List.mem_of_mem_take hx)⟩
  · simp only [Ctx.leave, a1, b1, List.length_append]
    rw [List.take_append, List.take_of_length_le (Nat.le_add_right _ _), Nat.add_sub_cancel_left]
  · simp only [Ctx.leave, a2, b2, List.length_append, reslotBinds, List.length_map]
    rw [List.take_append, List.take_of_length_le (Nat.le_add_right _ _), Nat.add_sub_cancel_left, List.map_take]

omit hS in
theorem set_reslot (k : Str) (v : SlotInfo) : ∀ d : Dict Str SlotInfo, Dict.set (reslotBinds f d) k (v.reslot f) = reslotBinds f (Dict.set d k v)
  | [] => rfl
  | (k', v') :: d => by
    have := set_reslot k v d
    simp only [reslotBinds, List.map_cons, Dict.set] at this ⊢
    rw [this]
    split <;> rfl

omit hS in
theorem update_reslot (l : List (Str × SlotInfo)) : ∀ d : Dict Str SlotInfo, Dict.update (reslotBinds f d) (reslotBinds f l) = reslotBinds f (Dict.update d l) := by
  induction l with
  | nil => exact fun d => rfl
  | cons a l ih =>
    obtain ⟨k, v⟩ := a
    intro d
    have := ih (Dict.set d k v)
    rw [← set_reslot] at this
    simpa only [reslotBinds, List.map_cons, Dict.update] using this

theorem pushnew_seat (ps : List (Str × SlotInfo)) : ∀ c c' : Ctx, Ss c c' → (∀ x ∈ ps, p x.1 ∧ n0 ≤ x.2.id ∧ x.2.id < c.next) →
    Ss (c.pushnew ps) (c'.pushnew (reslotBinds f ps)) := by
  induction ps with
  | nil => exact fun c c' hc _ => hc
  | cons a ps ih =>
    obtain ⟨k, v⟩ := a
    intro c c' hc w
    have wk := w (k, v) (by simp)
    have e : c'.get k = (c.get k).map (SlotInfo.reslot f) := hc.lookup hS wk.1
    simp only [reslotBinds, List.map_cons, Ctx.pushnew]
    rw [e, Option.isSome_map]
    split
    · exact ih c c' hc (fun x hx => w x (by simp [hx]))
    · refine ih _ _ ⟨?_, hc.regular, hc.control, hc.hypertag, hc.prolog, hc.next, hc.step, hc.least, ?_⟩ (fun x hx => w x (by simp [hx]))
      · obtain ⟨r, k1, k2, k3⟩ := hc.binds
        refine ⟨r ++ [(k, v)], by simp only [Ctx.push, k1, List.append_assoc], by
          simp only [Ctx.push, k2, List.append_assoc, reslotBinds, List.map_append, List.map_cons, List.map_nil], ?_⟩
        intro x hx
        rcases List.mem_append.1 hx with hx | hx
        · exact k3 x hx
        · rw [List.mem_singleton.1 hx]; exact ⟨wk.1, wk.2.1⟩
      · intro x hx
        simp only [Ctx.push, List.mem_append, List.mem_singleton] at hx
        rcases hx with hx | rfl
        · exact hc.below x hx
        · exact wk.2.2

theorem merge_seat {c0 c0' c c' : Ctx} (h0 : Ss c0 c0') (h : Ss c c') : Ss (c0.mergeBranch c) (c0'.mergeBranch c') := by
  obtain ⟨r0, a1, a2, a3⟩ := h0.binds
  obtain ⟨r, b1, b2, b3⟩ := h.binds
  have l1 : c0.binds.length = g.length + r0.length := by rw [a1, List.length_append]
  have l2 : c0'.binds.length = g'.length + r0.length := by rw [a2, List.length_append, reslotBinds, List.length_map]
  have e1 : c.binds.take c0.binds.length = g ++ r.take r0.length := by
    rw [l1, b1, List.take_append, List.take_of_length_le (Nat.le_add_right _ _), Nat.add_sub_cancel_left]
  have e2 : c'.binds.take c0'.binds.length = g' ++ reslotBinds f (r.take r0.length) := by
    rw [l2, b2, List.take_append, List.take_of_length_le (Nat.le_add_right _ _), Nat.add_sub_cancel_left, reslotBinds, reslotBinds, List.map_take]
  have e3 : c.binds.drop c0.binds.length = r.drop r0.length := by
    rw [l1, b1, List.drop_append, List.drop_of_length_le (Nat.le_add_right _ _), Nat.add_sub_cancel_left, List.nil_append]
  have e4 : c'.binds.drop c0'.binds.length = reslotBinds f (r.drop r0.length) := by
    rw [l2, b2, List.drop_append, List.drop_of_length_le (Nat.le_add_right _ _), Nat.add_sub_cancel_left, List.nil_append, reslotBinds, reslotBinds, List.map_drop]
  unfold Ctx.mergeBranch
  rw [e1, e2, e3, e4, show (Dict.update [] (reslotBinds f (r.drop r0.length))) = reslotBinds f (Dict.update [] (r.drop r0.length)) from update_reslot _ []]
  refine pushnew_seat hS _ _ _ ⟨⟨r.take r0.length, rfl, rfl, fun x hx => b3 x (List.mem_of_mem_take hx)⟩, h.regular, h.control, h.hypertag, h.prolog,
    h.next, h.step, h.least, fun x hx => h.below x ?_⟩ (fun x hx => ?_)
  · rw [← e1] at hx; exact List.mem_of_mem_take hx
  · rcases update_mem _ _ _ hx with hx | hx
    · cases hx
    · have hm := List.mem_of_mem_drop hx
      exact ⟨(b3 x hm).1, (b3 x hm).2, h.below x (by rw [b1]; exact List.mem_append_right _ hm)⟩

omit hS in
theorem merge_onward {c0 c : Ctx} (h : c0.Onward c) : c0.Onward (c0.mergeBranch c) := by
  obtain ⟨h1, h2, h3, h4, h5⟩ := Ctx.pushnew_frame { c with binds := c.binds.take c0.binds.length } (Dict.update [] (c.binds.drop c0.binds.length))
  exact ⟨by unfold Ctx.mergeBranch; rw [h4]; exact h.1, by unfold Ctx.mergeBranch; rw [h1]; exact h.2⟩

omit hS in
theorem merge_next (c0 c : Ctx) : (c0.mergeBranch c).next = c.next := by
  obtain ⟨h1, h2, h3, h4, h5⟩ := Ctx.pushnew_frame { c with binds := c.binds.take c0.binds.length } (Dict.update [] (c.binds.drop c0.binds.length))
  unfold Ctx.mergeBranch; rw [h4]

omit hS in
theorem leaveProlog_seat (b : Stmt P) {c c' : Ctx} (h : Ss c c') : Ss (leaveProlog b c) (leaveProlog b c') := by
  unfold leaveProlog
  split
  · exact h
  · exact h
  · exact ⟨h.binds, h.regular, h.control, h.hypertag, fun _ => rfl, h.next, h.step, h.least, h.below⟩

omit hS in
theorem leaveProlog_onward (b : Stmt P) (c : Ctx) : (leaveProlog b c).next = c.next ∧ (leaveProlog b c).regular = c.regular := by
  unfold leaveProlog
  split <;> exact ⟨rfl, rfl⟩

end
end
end
end Verif
