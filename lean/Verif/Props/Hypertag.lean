import Verif.Lemmas.CallBinding
import Verif.Lemmas.Part
import Verif.Spec.Toy

/-! Properties of tags and hypertag expansion: C57, C58. -/

namespace Verif
open Py

section
variable {P X W I : Type}

/-! ### C57 Hypertag attributes bind like Python call arguments -/

/-- The formal attributes, `@body` included, have names and slots of their own. -/
structure Proper (bodyAttr : Option AttrDef) (attrs : List AttrDef) : Prop where
  names : ((bodyAttr.toList ++ attrs).map (·.name)).Nodup
  bound : ∀ a ∈ bodyAttr.toList ++ attrs, a.slot.isSome
  slots : ((bodyAttr.toList ++ attrs).map (·.slot)).Nodup

theorem declareAttrs_slots (as : List AttrDef) (c : Ctx) : Judge True
    (fun r => c.next ≤ r.2.next ∧ (∀ a ∈ r.1, AttrSlots c r.2 a) ∧ (r.1.map (·.slot)).Nodup ∧
      r.1.map (·.name) = as.map (·.name))
    (declareAttrs as c : Except (AErr I) (List AttrDef × Ctx)) := by
  induction as generalizing c with
  | nil => exact .pure trivial ⟨Nat.le_refl _, by simp, by simp, rfl⟩
  | cons a as ih =>
    simp only [declareAttrs]
    refine (declare_judge c _).map ?_
    rintro ⟨s, c1⟩ ⟨h1, h2, h3, h4⟩
    refine (ih c1).map ?_
    rintro ⟨as', c2⟩ ⟨k1, k2, k3, k4⟩
    refine .pure trivial ⟨Nat.le_trans h1.next k1, ?_, ?_, by simpa using k4⟩
    · intro b hb
      rcases List.mem_cons.1 hb with rfl | hb
      · exact ⟨_, rfl, h3, Nat.lt_of_lt_of_le h4 k1⟩
      · obtain ⟨sl, e, f, g⟩ := k2 b hb
        exact ⟨sl, e, Nat.le_trans h1.next f, g⟩
    · simp only [List.map_cons, List.nodup_cons]
      refine ⟨?_, k3⟩
      intro hm
      obtain ⟨b, hb, e⟩ := List.mem_map.1 hm
      obtain ⟨sl, e', f, -⟩ := k2 b hb
      rw [e'] at e
      cases e
      exact Nat.lt_irrefl _ (Nat.lt_of_lt_of_le h4 f)

theorem analyseDefaults_names (b : List (Str × SlotInfo)) (as : List AttrDef) {as' : List AttrDef}
    (h : (analyseDefaults b as : Except (AErr I) _) = .ok as') : as'.map (·.name) = as.map (·.name) := by
  induction as generalizing as' with
  | nil => cases h; rfl
  | cons a as ih =>
    simp only [analyseDefaults] at h
    obtain ⟨e, _, h⟩ := ok_bind h
    obtain ⟨as1, h1, h⟩ := ok_bind h
    cases h
    simp [ih h1]

/-- Name analysis gives every definition proper attributes if their names are distinct, which is
checked when the syntax tree is built (ast.py:574-576). -/
theorem C57_definitions (src : Source P I) {id : DefId} {name : Str} {sl : Option Slot}
    {ba : Option AttrDef} {as : List AttrDef} {b : Stmt P} {c c' : Ctx} {s : Stmt P}
    (hn : ((ba.toList ++ as).map (·.name)).Nodup)
    (h : analyse src (.defn id name sl ba as b) c = .ok (s, c')) :
    ∃ sl' ba' as' b', s = .defn id name (some sl') ba' as' b' ∧
      (ba'.toList ++ as').map (·.name) = (ba.toList ++ as).map (·.name) ∧ Proper ba' as' := by
  simp only [analyse] at h
  split at h
  · cases h
  obtain ⟨ba1, e1, h⟩ := ok_bind h
  obtain ⟨as1, e2, h⟩ := ok_bind h
  obtain ⟨⟨ba2, c2⟩, e3, h⟩ := ok_bind h
  obtain ⟨⟨as2, c3⟩, e4, h⟩ := ok_bind h
  obtain ⟨⟨b', c4⟩, -, h⟩ := ok_bind h
  obtain ⟨⟨s', c5⟩, -, h⟩ := ok_bind h
  cases h
  obtain ⟨n1, s1, d1, m1⟩ := (declareAttrs_slots ba1 _).post _ e3
  obtain ⟨n2, s2, d2, m2⟩ := (declareAttrs_slots as1 _).post _ e4
  have hlen : ba2.head?.toList = ba2 := by
    have h1 : ba2.length ≤ 1 := by
      have : ba2.length = ba.toList.length := by
        have := congrArg List.length (m1.trans (analyseDefaults_names _ _ e1))
        simpa using this
      rw [this]
      cases ba <;> simp
    match ba2, h1 with
    | [], _ => rfl
    | [x], _ => rfl
  have hnames : (ba2.head?.toList ++ as2).map (·.name) = (ba.toList ++ as).map (·.name) := by
    rw [hlen, List.map_append, List.map_append, m1, m2, analyseDefaults_names _ _ e1,
      analyseDefaults_names _ _ e2]
  refine ⟨_, _, _, _, rfl, hnames, ?_⟩
  refine ⟨by rw [hnames]; exact hn, ?_, ?_⟩
  · rw [hlen]
    intro a ha
    rcases List.mem_append.1 ha with ha | ha
    · obtain ⟨x, e, -⟩ := s1 a ha
      rw [e]; rfl
    · obtain ⟨x, e, -⟩ := s2 a ha
      rw [e]; rfl
  · rw [hlen, List.map_append]
    refine List.nodup_append.2 ⟨d1, d2, ?_⟩
    intro x hx y hy e
    obtain ⟨a, ha, rfl⟩ := List.mem_map.1 hx
    obtain ⟨b, hb, rfl⟩ := List.mem_map.1 hy
    obtain ⟨x, ex, -, lx⟩ := s1 a ha
    obtain ⟨y, ey, ly, -⟩ := s2 b hb
    rw [ex, ey] at e
    cases e
    exact Nat.lt_irrefl _ (Nat.lt_of_lt_of_le lx ly)

open CallBinding in
theorem appendAttrs_checks (E : Env P X W) (σ : StateId) (d : DefInfo P) (body : Val P)
    (pos : List (Val P)) (kw : Dict Str (Val P)) (hp : Proper d.bodyAttr d.attrs)
    (hk : (Dict.keys kw).Nodup) :
    (bind d.attrs pos kw = .none ∧ appendAttrs E σ d body pos kw = Comp.raise .typeErr) ∨
    ∃ kw1, bind d.attrs pos kw = some ((padded d.attrs pos).map (merge kw)) ∧
      bindPositional d.attrs pos kw = some kw1 ∧
      (∀ n ∈ Dict.keys kw, ∃ p ∈ padded d.attrs pos, p.1.name = n ∧ p.2 = .none) ∧
      pos.length ≤ d.attrs.length ∧
      appendAttrs E σ d body pos kw = (do
        let kw2 ← bindDefaults E σ d.attrs kw1
        assignAttrs σ d.attrs kw2
        assignBody E σ d.bodyAttr body
        return domAttrs d pos kw) := by
  have hn : (d.attrs.map (·.name)).Nodup := by
    have := hp.names
    rw [List.map_append] at this
    exact (List.nodup_append.1 this).2.1
  rw [bind_eq _ _ _ hn hk, appendAttrs]
  by_cases h1 : d.attrs.length < pos.length
  · left
    rw [if_neg (fun h => by omega), if_pos h1]
    exact ⟨rfl, rfl⟩
  rw [if_neg h1]
  by_cases h2 : d.bodyAttr.any (fun a => (Dict.get? kw a.name).isSome) = true
  · left
    rw [if_pos h2]
    refine ⟨if_neg ?_, rfl⟩
    rintro ⟨-, h⟩
    cases hb : d.bodyAttr with
    | none => simp [hb] at h2
    | some a =>
      simp only [hb, Option.any_some, Dict.get?_isSome_iff] at h2
      obtain ⟨p, hpm, e, -⟩ := h _ h2
      have h3 := hp.names
      rw [hb] at h3
      simp only [Option.toList_some, List.cons_append, List.nil_append, List.map_cons,
        List.nodup_cons] at h3
      exact h3.1 (e ▸ mem_padded_names hpm)
  rw [if_neg h2]
  by_cases h3 : kw.any (fun p => !d.isAttr p.1) = true
  · left
    rw [if_pos h3]
    refine ⟨if_neg ?_, rfl⟩
    rintro ⟨-, h⟩
    obtain ⟨q, hq, h4⟩ := List.any_eq_true.1 h3
    obtain ⟨p, hpm, e, -⟩ := h q.1 (List.mem_map_of_mem hq)
    obtain ⟨a, ha, ea⟩ := List.mem_map.1 (mem_padded_names hpm)
    have : d.isAttr q.1 = true := by
      simp only [DefInfo.isAttr, Bool.or_eq_true, List.any_eq_true, decide_eq_true_eq]
      exact .inr ⟨a, ha, ea.trans e⟩
    simp [this] at h4
  rw [if_neg h3]
  have hin : ∀ n ∈ Dict.keys kw, n ∈ d.attrs.map (·.name) := by
    intro n hm
    obtain ⟨q, hq, rfl⟩ := List.mem_map.1 hm
    have h4 : d.isAttr q.1 = true := by
      cases h4 : d.isAttr q.1 with
      | true => rfl
      | false => exact absurd (List.any_eq_true.2 ⟨q, hq, by simp [h4]⟩) h3
    simp only [DefInfo.isAttr, Bool.or_eq_true, List.any_eq_true, decide_eq_true_eq] at h4
    rcases h4 with h4 | ⟨a, ha, e⟩
    · exfalso
      cases hb : d.bodyAttr with
      | none => simp [hb] at h4
      | some a =>
        simp only [hb, Option.any_some, decide_eq_true_eq] at h4
        refine h2 ?_
        rw [hb, Option.any_some, Dict.get?_isSome_iff, h4]
        exact hm
    · exact List.mem_map.2 ⟨a, ha, e⟩
  have hpos := bindPositional_isSome d.attrs pos kw hn
  cases hbp : bindPositional d.attrs pos kw with
  | none =>
    left
    refine ⟨if_neg ?_, rfl⟩
    rintro ⟨-, h⟩
    rw [hbp] at hpos
    simp only [Option.isSome_none, Bool.false_eq_true, false_iff] at hpos
    refine hpos (fun p hpm hs hkm => ?_)
    obtain ⟨p', hpm', e, e'⟩ := h _ hkm
    have : p' = p := inj_of_nodup_map (f := fun p : AttrDef × Option (Val P) => p.1.name)
      (by rw [padded_names]; exact hn) hpm' hpm e
    subst this
    rw [e'] at hs
    cases hs
  | some kw1 =>
    right
    rw [hbp] at hpos
    have hpos := hpos.1 rfl
    have hall : ∀ n ∈ Dict.keys kw, ∃ p ∈ padded d.attrs pos, p.1.name = n ∧ p.2 = .none := by
      intro n hm
      have := hin n hm
      rw [← padded_names d.attrs pos] at this
      obtain ⟨p, hpm, e⟩ := List.mem_map.1 this
      refine ⟨p, hpm, e, ?_⟩
      cases hp2 : p.2 with
      | none => rfl
      | some w => exact absurd (e ▸ hm) (hpos p hpm (by rw [hp2]; rfl))
    exact ⟨kw1, if_pos ⟨by omega, hall⟩, rfl, hall, by omega, rfl⟩

theorem zip_keys_sublist {V : Type} (ns : List Str) (vs : List V) : (Dict.keys (ns.zip vs)).Sublist ns := by
  induction ns generalizing vs with
  | nil => simp [Dict.keys]
  | cons n ns ih =>
    cases vs with
    | nil => simp [Dict.keys]
    | cons v vs => exact (ih vs).cons_cons n

/-- Whenever a Python call would raise `TypeError` for too many positional arguments, an unknown
keyword or a parameter given twice, so does the hypertag, before anything else happens. An attempt to
set `@body` by keyword is an unknown keyword here, because `@body` is not among `d.attrs`. -/
theorem C57_type_error (E : Env P X W) (σ : StateId) (d : DefInfo P) (body : Val P)
    (pos : List (Val P)) (kw : Dict Str (Val P)) (hp : Proper d.bodyAttr d.attrs)
    (hk : (Dict.keys kw).Nodup) (h : CallBinding.bind d.attrs pos kw = .none) (M : Machine P W) :
    appendAttrs E σ d body pos kw M = (.raise .typeErr, M) := by
  rcases appendAttrs_checks E σ d body pos kw hp hk with ⟨-, h'⟩ | ⟨kw1, h', -⟩
  · rw [h']; rfl
  · rw [h] at h'; cases h'

open CallBinding in
theorem appendAttrs_bound (E : Env P X W) (σ : StateId) (d : DefInfo P) (body : Val P)
    (pos : List (Val P)) (kw : Dict Str (Val P)) (hp : Proper d.bodyAttr d.attrs)
    (hk : (Dict.keys kw).Nodup) {slots : List (AttrDef × Option (Val P))}
    (h : bind d.attrs pos kw = some slots) (M : Machine P W) :
    (∀ e M1, defaults E σ slots M = (.raise e, M1) →
      appendAttrs E σ d body pos kw M = (.raise e, M1)) ∧
    (∀ M1, defaults E σ slots M = (.timeout, M1) →
      appendAttrs E σ d body pos kw M = (.timeout, M1)) ∧
    (∀ vals M1, defaults E σ slots M = (.ok vals, M1) →
      vals.map (·.1) = d.attrs ∧
      ∃ M2, Assigned σ vals M1 M2 ∧ appendAttrs E σ d body pos kw M = (do
        assignBody E σ d.bodyAttr body
        return (d.attrs.map (·.name)).zip pos ++ kw : Comp P X W _) M2) := by
  have hn : (d.attrs.map (·.name)).Nodup := by
    have := hp.names
    rw [List.map_append] at this
    exact (List.nodup_append.1 this).2.1
  rcases appendAttrs_checks E σ d body pos kw hp hk with ⟨h', -⟩ | ⟨kw1, h', hb, hall, hlen, heq⟩
  · rw [h] at h'; cases h'
  rw [h] at h'
  cases h'
  obtain ⟨b1, b2, b3, b4⟩ := bindPositional_some d.attrs pos kw kw1 hn hb
  have hslots : ((padded d.attrs pos).map (merge kw)).map (·.1) = d.attrs := by
    rw [List.map_map]
    exact padded_fst d.attrs pos
  have hD := bindDefaults_eq E σ ((padded d.attrs pos).map (merge kw)) kw1
    (by rw [merge_names, padded_names]; exact hn)
    (by
      intro p hpm
      obtain ⟨q, hq, rfl⟩ := List.mem_map.1 hpm
      exact b3 q hq) M
  rw [hslots, merge_names, padded_names] at hD
  obtain ⟨d1, d2, d3⟩ := hD
  rw [heq]
  refine ⟨fun e M1 hd => Comp.bind_raise (d2 e M1 hd), fun M1 hd => Comp.bind_timeout (d3 M1 hd),
    fun vals M1 hd => ?_⟩
  obtain ⟨kw2, e1, e2, e3, e4, e5, e6⟩ := d1 vals M1 hd
  refine ⟨e2, ?_⟩
  have hbound : ∀ a ∈ d.attrs, a.slot = some (a.slot.getD 0) := by
    intro a ha
    have := hp.bound a (List.mem_append_right _ ha)
    cases hs : a.slot with
    | none => rw [hs] at this; cases this
    | some sl => rfl
  have hsn : (d.attrs.map (fun a => a.slot.getD 0)).Nodup := by
    have h3 := hp.slots
    rw [List.map_append] at h3
    have h4 := (List.nodup_append.1 h3).2.1
    have h5 : d.attrs.map (·.slot) = (d.attrs.map (fun a => a.slot.getD 0)).map some := by
      rw [List.map_map]
      exact List.map_congr_left hbound
    rw [h5] at h4
    exact (List.pairwise_map.1 h4).imp (fun h e => h (congrArg some e))
  obtain ⟨M2, a1, a2, a3, a4⟩ := assignAttrs_eq (X := X) σ d.attrs hn (fun a => a.slot.getD 0) hbound
    hsn kw2 (e3 (b1 hk)) (fun n hm => by
      rcases e4 n hm with h | h
      · rcases b2 n h with h | h
        · obtain ⟨p, hpm, e, -⟩ := hall n h
          exact e ▸ mem_padded_names hpm
        · exact h
      · exact h) M1
  refine ⟨M2, ⟨?_, ?_, a4⟩, ?_⟩
  · intro p hpm sl hsl
    have hpa : p.1 ∈ d.attrs := by
      rw [← e2]; exact List.mem_map_of_mem hpm
    have := a2 p.1 hpa
    rw [e5 p hpm] at this
    simpa [hsl] using this
  · intro sl hsl
    refine a3 sl (fun hm => ?_)
    obtain ⟨a, ha, e⟩ := List.mem_map.1 hm
    rw [← e2] at ha
    obtain ⟨p, hpm, rfl⟩ := List.mem_map.1 ha
    refine hsl p hpm ?_
    rw [hbound p.1 (by rw [← e2]; exact ha)]
    exact congrArg some e
  · rw [Comp.bind_ok e1, Comp.bind_ok a1]
    have hdom : domAttrs d pos kw = (d.attrs.map (·.name)).zip pos ++ kw := by
      rw [domAttrs]
      have hz : ∀ n ∈ Dict.keys ((d.attrs.map (·.name)).zip pos),
          ∃ p ∈ padded d.attrs pos, p.1.name = n ∧ p.2 ≠ .none := by
        clear * -
        intro n hm
        generalize d.attrs = as at hm ⊢
        induction as generalizing pos with
        | nil => simp [Dict.keys] at hm
        | cons a as ih =>
          cases pos with
          | nil => simp [Dict.keys] at hm
          | cons v vs =>
            simp only [List.map_cons, List.zip_cons_cons, Dict.keys, List.mem_cons] at hm
            rcases hm with rfl | hm
            · exact ⟨(a, some v), by simp [padded], rfl, by simp⟩
            · obtain ⟨p, hp, e⟩ := ih vs hm
              exact ⟨p, by simp [padded, hp], e⟩
      have hzn : (Dict.keys ((d.attrs.map (·.name)).zip pos)).Nodup := by
        exact (zip_keys_sublist _ _).nodup hn
      rw [update_nodup [] _ (by simpa using hzn), List.nil_append, update_nodup]
      simp only [Dict.keys, List.map_append]
      refine List.nodup_append.2 ⟨hzn, hk, ?_⟩
      intro x hx y hy e
      subst e
      obtain ⟨p, hpm, ep, np⟩ := hz x hx
      obtain ⟨q, hqm, eq, nq⟩ := hall x hy
      have : p = q := inj_of_nodup_map (f := fun p : AttrDef × Option (Val P) => p.1.name)
        (by rw [padded_names]; exact hn) hpm hqm (ep.trans eq.symm)
      subst this
      exact np nq
    rw [hdom]

/-- Otherwise the slots still unfilled get their defaults, in order; an error on the way (among them the
`TypeError` for a required attribute that is missing) is the result. Then every attribute and `@body`
have the values of the call, nothing else has changed, and the result lists the actual attributes. -/
theorem C57_bound (E : Env P X W) (σ : StateId) (d : DefInfo P) (body : Val P)
    (pos : List (Val P)) (kw : Dict Str (Val P)) (hp : Proper d.bodyAttr d.attrs)
    (hk : (Dict.keys kw).Nodup) {slots : List (AttrDef × Option (Val P))}
    (h : CallBinding.bind d.attrs pos kw = some slots) {ab : AttrDef} (hb : d.bodyAttr = some ab)
    (M : Machine P W) :
    (∀ e M1, CallBinding.defaults E σ slots M = (.raise e, M1) →
      appendAttrs E σ d body pos kw M = (.raise e, M1)) ∧
    (∀ vals M1, CallBinding.defaults E σ slots M = (.ok vals, M1) →
      vals.map (·.1) = d.attrs ∧
      ∃ M2, CallBinding.Assigned σ ((ab, body) :: vals) M1 M2 ∧
        appendAttrs E σ d body pos kw M = (.ok ((d.attrs.map (·.name)).zip pos ++ kw), M2)) := by
  obtain ⟨h1, -, h3⟩ := appendAttrs_bound E σ d body pos kw hp hk h M
  refine ⟨h1, fun vals M1 hd => ?_⟩
  obtain ⟨k1, M2, k2, k3⟩ := h3 vals M1 hd
  refine ⟨k1, ?_⟩
  have hs : ∃ sl, ab.slot = some sl := by
    have := hp.bound ab (by simp [hb])
    exact Option.isSome_iff_exists.1 this
  obtain ⟨sl, hs⟩ := hs
  have hfresh : ∀ p ∈ vals, p.1.slot ≠ some sl := by
    intro p hpm e
    have h4 := hp.slots
    rw [hb] at h4
    simp only [Option.toList_some, List.cons_append, List.nil_append, List.map_cons,
      List.nodup_cons] at h4
    refine h4.1 ?_
    rw [hs, ← e, ← k1, List.map_map]
    exact List.mem_map_of_mem (f := fun p : AttrDef × Val P => p.1.slot) hpm
  refine ⟨M2.updState σ (fun s => { s with values := fun t => if t = sl then some body else s.values t }),
    ⟨?_, ?_, ?_⟩, ?_⟩
  · intro p hpm sl' hsl'
    rcases List.mem_cons.1 hpm with rfl | hpm
    · rw [hs] at hsl'
      cases hsl'
      simp [Machine.updState]
    · have : sl' ≠ sl := fun e => hfresh p hpm (e ▸ hsl')
      simp [Machine.updState, this, k2.formal p hpm sl' hsl']
  · intro sl' hall
    have h1 : sl' ≠ sl := fun e => hall (ab, body) (by simp) (e ▸ hs)
    simp [Machine.updState, h1, k2.others sl' (fun p hpm => hall p (List.mem_cons_of_mem _ hpm))]
  · conv => lhs; rw [k2.rest]
    simp only [Machine.updState, Machine.mk.injEq, and_true]
    funext τ
    by_cases h : τ = σ
    · subst h; simp
    · simp [h]
  · rw [k3, hb]
    simp only [assignBody, assignAttr, hs]
    rfl

/-- The same for a void hypertag: a body that counts as true is refused. -/
theorem C57_void (E : Env P X W) (σ : StateId) (d : DefInfo P) (body : Val P)
    (pos : List (Val P)) (kw : Dict Str (Val P)) (hp : Proper d.bodyAttr d.attrs)
    (hk : (Dict.keys kw).Nodup) {slots : List (AttrDef × Option (Val P))}
    (h : CallBinding.bind d.attrs pos kw = some slots) (hb : d.bodyAttr = .none) (M : Machine P W) :
    (∀ e M1, CallBinding.defaults E σ slots M = (.raise e, M1) →
      appendAttrs E σ d body pos kw M = (.raise e, M1)) ∧
    (∀ vals M1, CallBinding.defaults E σ slots M = (.ok vals, M1) →
      vals.map (·.1) = d.attrs ∧
      ∃ M2, CallBinding.Assigned σ vals M1 M2 ∧
        (∀ M3, truthOf E body M2 = (.ok false, M3) →
          appendAttrs E σ d body pos kw M = (.ok ((d.attrs.map (·.name)).zip pos ++ kw), M3)) ∧
        (∀ M3, truthOf E body M2 = (.ok true, M3) →
          appendAttrs E σ d body pos kw M = (.raise .voidTag, M3))) := by
  obtain ⟨h1, -, h3⟩ := appendAttrs_bound E σ d body pos kw hp hk h M
  refine ⟨h1, fun vals M1 hd => ?_⟩
  obtain ⟨k1, M2, k2, k3⟩ := h3 vals M1 hd
  refine ⟨k1, M2, k2, fun M3 ht => ?_, fun M3 ht => ?_⟩
  · rw [k3, hb]
    simp only [assignBody, Comp.bind_assoc]
    rw [Comp.bind_ok ht]
    rfl
  · rw [k3, hb]
    simp only [assignBody, Comp.bind_assoc]
    rw [Comp.bind_ok ht]
    rfl

namespace Toy

/-- `% H @body a b=f() c` with the function in slot 0. -/
def hyperH : DefInfo Obj where
  bodyAttr := some { name := s!!"body", slot := some 10, default := none }
  attrs := [{ name := s!!"a", slot := some 11, default := none },
            { name := s!!"b", slot := some 12, default := some (f 0) },
            { name := s!!"c", slot := some 13, default := none }]
  body := .comment

/-- The values of slots 10 to 13 and the attributes recorded in the DOM. -/
def bound (pos : List V) (kw : Dict Str V) : Res Nat (Dict Str V) × List (Option V) :=
  let r := appendAttrs env 0 hyperH (num 50) pos kw (machine [.py (.fn 7)])
  (r.1, [10, 11, 12, 13].map (r.2.states 0).values)

example : Proper hyperH.bodyAttr hyperH.attrs := ⟨by decide, by decide, by decide⟩
/-- `H 1 c=2`: the default of `b` is evaluated. -/
example : bound [num 1] [(s!!"c", num 2)] =
    (.ok [(s!!"a", num 1), (s!!"c", num 2)], [some (num 50), some (num 1), some (num 7), some (num 2)]) := rfl
/-- `H 1 2 b=3`: `b` twice. -/
example : bound [num 1, num 2] [(s!!"b", num 3)] = (.raise .typeErr, [none, none, none, none]) := rfl
/-- `H 1 body=3`. -/
example : bound [num 1] [(s!!"c", num 2), (s!!"body", num 3)] = (.raise .typeErr, [none, none, none, none]) := rfl
/-- `H 1`: `c` is missing. -/
example : (bound [num 1] []).1 = .raise .typeErr := rfl
example : CallBinding.bind hyperH.attrs [num 1, num 2] [(s!!"b", num 3)] = none := rfl
example : CallBinding.bind hyperH.attrs [num 1] [(s!!"c", num 2)] =
    some (hyperH.attrs.zip [some (num 1), none, some (num 2)]) := rfl

end Toy

/-! ### C58 Repeated attributes are joined with spaces -/

/-- The values given for the attribute `n`, in order. -/
def givenFor (n : Str) (pairs : List (Str × Val P)) : List (Val P) :=
  (pairs.filter (fun p => p.1 = n)).map (·.2)

/-- What the tag receives: every name once, in the order of first occurrence; a single value as it is,
several strings joined with single spaces. -/
structure Joined (pairs d : List (Str × Val P)) : Prop where
  names : d.map (·.1) = (pairs.map (·.1)).eraseDups
  single : ∀ n v, givenFor n pairs = [v] → Dict.get? d n = some v
  strings : ∀ n ss, givenFor n pairs = ss.map .str → ss ≠ [] →
    Dict.get? d n = some (.str (List.intercalate [' '] ss))

theorem intercalate_snoc (sep : Str) (ss : List Str) (t : Str) (h : ss ≠ []) :
    List.intercalate sep (ss ++ [t]) = List.intercalate sep ss ++ (sep ++ t) := by
  induction ss with
  | nil => exact absurd rfl h
  | cons a ss ih =>
    cases ss with
    | nil => simp [List.intercalate]
    | cons b ss =>
      have := ih (by simp)
      simp only [List.intercalate, List.cons_append, List.intersperse_cons_cons, List.flatten_cons] at this ⊢
      rw [this]
      simp

theorem givenFor_append (n : Str) (p q : List (Str × Val P)) :
    givenFor n (p ++ q) = givenFor n p ++ givenFor n q := by
  simp [givenFor]

theorem givenFor_nil_iff (n : Str) (p : List (Str × Val P)) : givenFor n p = [] ↔ n ∉ p.map (·.1) := by
  simp only [givenFor, List.map_eq_nil_iff, List.filter_eq_nil_iff, decide_eq_true_eq, List.mem_map,
    not_exists, not_and]

theorem map_str_inj {ss ts : List Str} (h : ss.map (Val.str : Str → Val P) = ts.map .str) : ss = ts := by
  induction ss generalizing ts with
  | nil => exact (List.map_eq_nil_iff.1 h.symm).symm
  | cons a ss ih =>
    cases ts with
    | nil => cases h
    | cons b ts =>
      simp only [List.map_cons, List.cons.injEq, Val.str.injEq] at h
      rw [h.1, ih h.2]

theorem Joined.new {pairs d : List (Str × Val P)} (h : Joined pairs d) {n : Str} (v : Val P)
    (hn : Dict.get? d n = .none) : Joined (pairs ++ [(n, v)]) (Dict.set d n v) := by
  have hd : n ∉ Dict.keys d := (Dict.get?_eq_none_iff _ _).1 hn
  have hp : n ∉ pairs.map (·.1) := fun hm => hd (by rw [Dict.keys, h.names]; exact List.mem_eraseDups.2 hm)
  have hg : givenFor n pairs = [] := (givenFor_nil_iff n pairs).2 hp
  have h1 : givenFor n [(n, v)] = [v] := by simp [givenFor]
  have h2 : ∀ m, n ≠ m → givenFor m [(n, v)] = [] := by intro m hm; simp [givenFor, hm]
  refine ⟨?_, fun m w hm => ?_, fun m ss hm hss => ?_⟩
  · have := Dict.keys_set d n v
    rw [if_neg hd] at this
    rw [show (Dict.set d n v).map (·.1) = _ from this, Dict.keys, h.names, List.map_append,
      List.eraseDups_append]
    congr 1
    simp only [List.map_cons, List.map_nil, List.removeAll, List.filter_cons, List.filter_nil]
    simp [hp, List.eraseDups_cons]
  · rw [Dict.get?_set]
    by_cases e : n = m
    · subst e
      rw [givenFor_append, hg, h1] at hm
      simp only [List.nil_append, List.cons.injEq, and_true] at hm
      simp [hm]
    · rw [if_neg e]
      rw [givenFor_append, h2 m e, List.append_nil] at hm
      exact h.single m w hm
  · rw [Dict.get?_set]
    by_cases e : n = m
    · subst e
      rw [givenFor_append, hg, h1, List.nil_append] at hm
      match ss, hm with
      | [s], hm =>
        simp only [List.map_cons, List.map_nil, List.cons.injEq, and_true] at hm
        simp [hm, List.intercalate]
    · rw [if_neg e]
      rw [givenFor_append, h2 m e, List.append_nil] at hm
      exact h.strings m ss hm hss

theorem Joined.again {pairs d : List (Str × Val P)} (h : Joined pairs d) {n : Str} {ss : List Str}
    (hs : givenFor n pairs = ss.map .str) (hne : ss ≠ []) (t : Str) :
    Joined (pairs ++ [(n, .str t)]) (Dict.set d n (.str (List.intercalate [' '] ss ++ (' ' :: t)))) := by
  have hp : n ∈ pairs.map (·.1) := by
    by_contra hp
    rw [(givenFor_nil_iff n pairs).2 hp] at hs
    exact hne (List.map_eq_nil_iff.1 hs.symm)
  have hd : n ∈ Dict.keys d := by rw [Dict.keys, h.names]; exact List.mem_eraseDups.2 hp
  have h1 : givenFor n [(n, .str t)] = [(.str t : Val P)] := by simp [givenFor]
  have h2 : ∀ m, n ≠ m → givenFor m [(n, (.str t : Val P))] = [] := by intro m hm; simp [givenFor, hm]
  refine ⟨?_, fun m w hm => ?_, fun m rs hm hss => ?_⟩
  · have := Dict.keys_set d n (.str (List.intercalate [' '] ss ++ (' ' :: t)) : Val P)
    rw [if_pos hd] at this
    rw [show (Dict.set d n _).map (·.1) = _ from this, Dict.keys, h.names, List.map_append,
      List.eraseDups_append]
    have : ([(n, (.str t : Val P))].map (·.1)).removeAll (pairs.map (·.1)) = [] := by
      simp only [List.map_cons, List.map_nil, List.removeAll, List.filter_cons, List.filter_nil]
      rw [if_neg]
      simpa using hp
    rw [this]
    simp
  · rw [Dict.get?_set]
    by_cases e : n = m
    · subst e
      rw [givenFor_append, hs, h1] at hm
      have := congrArg List.length hm
      simp at this
      exact absurd this hne
    · rw [if_neg e]
      rw [givenFor_append, h2 m e, List.append_nil] at hm
      exact h.single m w hm
  · rw [Dict.get?_set]
    by_cases e : n = m
    · subst e
      rw [givenFor_append, hs, h1] at hm
      have : rs = ss ++ [t] := by
        refine map_str_inj (P := P) ?_
        rw [← hm]; simp
      rw [this, if_pos rfl, intercalate_snoc _ _ _ hne]
      rfl
    · rw [if_neg e]
      rw [givenFor_append, h2 m e, List.append_nil] at hm
      exact h.strings m rs hm hss

theorem evalNamed_joined (E : Env P X W) (σ : StateId) (named : List (Str × Expr))
    (pre d : List (Str × Val P)) (hd : Joined pre d) (vs : List (Val P)) (M M' : Machine P W)
    (hv : evalList E σ (named.map (·.2)) M = (.ok vs, M'))
    (hs : ∀ n, 2 ≤ (givenFor n (pre ++ (named.map (·.1)).zip vs)).length →
      ∀ v ∈ givenFor n (pre ++ (named.map (·.1)).zip vs), ∃ s, v = .str s) :
    ∃ d', evalNamed E σ named d M = (.ok d', M') ∧ Joined (pre ++ (named.map (·.1)).zip vs) d' := by
  induction named generalizing pre d vs M with
  | nil =>
    cases hv
    exact ⟨d, rfl, by simpa using hd⟩
  | cons p named ih =>
    obtain ⟨n, e⟩ := p
    simp only [List.map_cons, evalList] at hv
    obtain ⟨v, M1, h1, hv⟩ := Comp.bind_eq_ok.1 hv
    obtain ⟨vs', M2, h2, hv⟩ := Comp.bind_eq_ok.1 hv
    cases hv
    have hassoc : pre ++ (List.map (·.1) ((n, e) :: named)).zip (v :: vs') =
        (pre ++ [(n, v)]) ++ (named.map (·.1)).zip vs' := by simp
    rw [hassoc] at hs ⊢
    rw [evalNamed, Comp.bind_ok h1]
    cases hg : Dict.get? d n with
    | none => exact ih _ _ (hd.new v hg) vs' M1 h2 hs
    | some old =>
      have hmem : n ∈ pre.map (·.1) := by
        have : n ∈ Dict.keys d := (Dict.get?_isSome_iff _ _).1 (by rw [hg]; rfl)
        rw [Dict.keys, hd.names] at this
        exact List.mem_eraseDups.1 this
      have hne : givenFor n pre ≠ [] := fun h => (givenFor_nil_iff n pre).1 h hmem
      have hself : givenFor n [(n, v)] = [v] := by simp [givenFor]
      have hall := hs n (by
        rw [givenFor_append, givenFor_append, hself]
        have := List.length_pos_iff.2 hne
        simp only [List.length_append, List.length_cons, List.length_nil]
        omega)
      obtain ⟨t, rfl⟩ := hall v (by
        rw [givenFor_append, givenFor_append, hself]; simp)
      obtain ⟨ss, hss⟩ : ∃ ss : List Str, givenFor n pre = ss.map .str := by
        have hall' : ∀ v ∈ givenFor n pre, ∃ s, v = .str s := fun v hv => hall v (by
          rw [givenFor_append, givenFor_append]; simp [hv])
        revert hall'
        generalize givenFor n pre = l
        clear * -
        intro hl
        induction l with
        | nil => exact ⟨[], rfl⟩
        | cons a l ih =>
          obtain ⟨s, rfl⟩ := hl a (by simp)
          obtain ⟨ss, rfl⟩ := ih (fun v hv => hl v (by simp [hv]))
          exact ⟨s :: ss, rfl⟩
      have hssne : ss ≠ [] := fun h => hne (by rw [hss, h]; rfl)
      have hold := hd.strings n ss hss hssne
      rw [hg] at hold
      cases hold
      exact ih _ _ (hd.again hss hssne t) vs' M1 h2 hs

/-- If the expressions have values, and those of repeated attributes are strings, then the tag receives
the joined attributes. Missing for the full claim: repeated attributes that are not strings, for which it
is false, see `C58_not_in_general`. -/
theorem C58_joined_partial (E : Env P X W) (σ : StateId) (named : List (Str × Expr)) (vs : List (Val P))
    (M M' : Machine P W) (hv : evalList E σ (named.map (·.2)) M = (.ok vs, M'))
    (hs : ∀ n, 2 ≤ (givenFor n ((named.map (·.1)).zip vs)).length →
      ∀ v ∈ givenFor n ((named.map (·.1)).zip vs), ∃ s, v = .str s) :
    ∃ d, evalNamed E σ named [] M = (.ok d, M') ∧ Joined ((named.map (·.1)).zip vs) d := by
  have h := evalNamed_joined E σ named [] [] ⟨rfl, by simp [givenFor], by
    intro n ss h hne
    simp only [givenFor, List.filter_nil, List.map_nil] at h
    exact absurd (List.map_eq_nil_iff.1 h.symm) hne⟩ vs M M' hv (by simpa using hs)
  simpa using h

/-- C58, for the node that is made: its unnamed attributes are the values of the unnamed ones, in order, its named
attributes are the joined ones. All expressions are evaluated from left to right, unnamed ones first. -/
theorem C58_tag_partial (E : Env P X W) (σ : StateId) (name : Str) (sl : Slot) (unnamed : List Expr)
    (named : List (Str × Expr)) (us vs : List (Val P)) (p : P) (body : List Ref) (M M1 M2 : Machine P W)
    (hu : evalList E σ unnamed M = (.ok us, M1)) (hv : evalList E σ (named.map (·.2)) M1 = (.ok vs, M2))
    (hs : ∀ n, 2 ≤ (givenFor n ((named.map (·.1)).zip vs)).length →
      ∀ v ∈ givenFor n ((named.map (·.1)).zip vs), ∃ s, v = .str s)
    (ht : (M2.states σ).values sl = some (.py p)) (hp : E.ops.isTag p = true) :
    ∃ M' d, translTag E σ (.tag name (some sl) unnamed named) body M = (.ok [M2.mem.next], M') ∧
      Joined ((named.map (·.1)).zip vs) d ∧
      M'.mem.nodes M2.mem.next =
        { cls := .node, tag := some (.ext p), attrs := some us, kwattrs := some d, body := body, indent := none } ∧
      (∀ q, q ≠ M2.mem.next → M'.mem.nodes q = M2.mem.nodes q) ∧ M'.states = M2.states := by
  obtain ⟨d, h1, h2⟩ := C58_joined_partial E σ named vs M1 M2 hv hs
  have hr : (readTag σ (some sl) : Comp P X W _) M2 = (.ok (.py p), M2) := by
    simp only [readTag]
    rw [Comp.bind_ok (show (getSlot σ sl : Comp P X W _) M2 = (.ok (some (.py p)), M2) by simp [getSlot, ht])]
    rfl
  have hrun : translTag E σ (.tag name (some sl) unnamed named) body M =
      (newNode .node body .none (some (.ext p)) (some us) (some d) >>= fun r => (return [r]) : Comp P X W (List Ref)) M2 := by
    simp only [translTag]
    rw [Comp.bind_ok hu, Comp.bind_ok h1, Comp.bind_ok hr]
    simp only [applyTagValue, hp, if_true]
  refine ⟨_, d, hrun.trans rfl, h2, if_pos rfl, fun q hq => if_neg hq, rfl⟩

namespace Toy

/-- `class='a' id=7 class='b' class='c'` -/
example : (evalNamed env 0 [(s!!"class", .strLit (s!!"a")), (s!!"id", v 0), (s!!"class", .strLit (s!!"b")),
      (s!!"class", .strLit (s!!"c"))] [] (machine [num 7])).1 =
    .ok [(s!!"class", .str (s!!"a b c")), (s!!"id", num 7)] := rfl

end Toy

/-- `a=1 a=2` is an error: numbers are not joined. -/
theorem C58_not_in_general : ∃ (named : List (Str × Expr)) (vs : List Toy.V) (M M' : Toy.M),
    evalList Toy.env 0 (named.map (·.2)) M = (.ok vs, M') ∧
    ∃ e M'', evalNamed Toy.env 0 named [] M = (.raise e, M'') :=
  ⟨[(s!!"a", Toy.v 0), (s!!"a", Toy.v 1)], [Toy.num 1, Toy.num 2], Toy.machine [Toy.num 1, Toy.num 2], _,
    rfl, .user 3, _, rfl⟩

end
end Verif
