import Verif.Lemmas.PyModule

/-! C92: symbols of Python modules. -/

namespace Verif
open Py

/-! ### C92: what a script can import from a Python module -/

section
variable {O E : Type} {W : PyObjects O E} {attrs : List (Str × O)}

/-- The name of the dictionary of tags. -/
def tagsName : Str := s!!"__tags__"

/-- What `__tags__` of the module is, if it has any tags. -/
def tagsOf (W : PyObjects O E) (attrs : List (Str × O)) (d : Dict Str O) : Prop :=
  ∃ o, (tagsName, o) ∈ attrs ∧ W.truth o = true ∧ W.dict o = some d

/-- Names listed by `dir` are distinct. -/
def DistinctNames (attrs : List (Str × O)) : Prop := ∀ n v v', (n, v) ∈ attrs → (n, v') ∈ attrs → v = v'

theorem marked_mem {n : Str} {v : O} : ('$' :: n, v) ∈ attrs.map (fun p => ('$' :: p.1, p.2)) ↔ (n, v) ∈ attrs := by
  rw [List.mem_map]
  constructor
  · rintro ⟨⟨a, b⟩, h, e⟩
    cases e
    exact h
  · exact fun h => ⟨(n, v), h, rfl⟩

theorem symbols_get (hd : DistinctNames attrs) {n : Str} {v : O} :
    Dict.get? (Dict.update [] (attrs.map (fun p => ('$' :: p.1, p.2)))) ('$' :: n) = some v ↔ (n, v) ∈ attrs := by
  constructor
  · intro h
    rcases get?_update_mem h with h | h
    · exact marked_mem.1 h
    · cases h
  · intro h
    exact get?_update_of_mem _ _ (marked_mem.2 h) (fun v' h' => hd n v' v (marked_mem.1 h') h)

theorem symbols_nodup :
    (Dict.keys (Dict.update [] (attrs.map (fun p => ('$' :: p.1, p.2))))).Nodup := Dict.nodup_update (by simp [Dict.keys]) _

theorem symbols_rest (hd : DistinctNames attrs) {s : Str} {v : O} :
    Dict.get? (Dict.erase (Dict.update [] (attrs.map (fun p => ('$' :: p.1, p.2)))) ('$' :: tagsName)) s = some v ↔
      ∃ n, s = '$' :: n ∧ n ≠ tagsName ∧ (n, v) ∈ attrs := by
  rw [Dict.get?_erase _ symbols_nodup]
  constructor
  · intro h
    split at h
    · cases h
    · rename_i hne
      rcases get?_update_mem h with h1 | h1
      · obtain ⟨⟨a, b⟩, h2, e⟩ := List.mem_map.1 h1
        cases e
        exact ⟨a, rfl, fun e => hne (by rw [e]), h2⟩
      · cases h1
  · rintro ⟨n, rfl, hn, hm⟩
    rw [if_neg (by rintro ⟨⟩; exact hn rfl)]
    exact (symbols_get hd).2 hm

/-- The cases of `pyModule`. -/
theorem pyModule_cases (hd : DistinctNames attrs) {syms : Dict Str O} (h : pyModule W attrs = .ok syms) :
    (∀ d, ¬ tagsOf W attrs d) ∧ (∀ s v, syms.get? s = some v ↔ ∃ n, s = '$' :: n ∧ n ≠ tagsName ∧ (n, v) ∈ attrs) ∨
    ∃ d l, tagsOf W attrs d ∧ (∀ p ∈ d, W.name p.2 = .ok (some p.1)) ∧ tagSymbols (E := E) d = .ok l ∧
      syms = Dict.update (Dict.erase (Dict.update [] (attrs.map (fun p => ('$' :: p.1, p.2)))) ('$' :: tagsName)) l := by
  unfold pyModule at h
  simp only at h
  split at h
  · rename_i hn
    cases h
    refine .inl ⟨?_, fun s v => symbols_rest hd⟩
    rintro d ⟨o, ho, -⟩
    have := (symbols_get hd).2 ho
    rw [show ('$' :: tagsName) = ('$' :: "__tags__".toList) from rfl, hn] at this
    cases this
  · rename_i o ho
    have hom : (tagsName, o) ∈ attrs := (symbols_get hd).1 ho
    split at h
    · rename_i ht
      cases h
      refine .inl ⟨?_, fun s v => symbols_rest hd⟩
      rintro d ⟨o', ho', ht', -⟩
      rw [hd _ _ _ ho' hom, ht] at ht'
      cases ht'
    · rename_i ht
      split at h
      · cases h
      · rename_i d hdict
        split at h
        · cases h
        · rename_i hc
          split at h
          · cases h
          · rename_i l hl
            cases h
            exact .inr ⟨d, l, ⟨o, hom, by simpa using ht, hdict⟩, (checkTagNames_ok W).1 hc, hl, rfl⟩

/-- Every attribute of the module other than `__tags__` is importable as a variable of the same name, with its value. -/
theorem C92_variable (hd : DistinctNames attrs) {syms : Dict Str O} (h : pyModule W attrs = .ok syms) {n : Str} {v : O}
    (hn : n ≠ tagsName) : syms.get? ('$' :: n) = some v ↔ (n, v) ∈ attrs := by
  have base : (∃ m, '$' :: n = '$' :: m ∧ m ≠ tagsName ∧ (m, v) ∈ attrs) ↔ (n, v) ∈ attrs :=
    ⟨fun ⟨m, e, _, h⟩ => by cases e; exact h, fun h => ⟨n, rfl, hn, h⟩⟩
  rcases pyModule_cases hd h with ⟨-, h1⟩ | ⟨d, l, -, -, h3, rfl⟩
  · rw [h1, base]
  · rw [get?_update_of_not_mem, symbols_rest hd, base]
    intro hm
    obtain ⟨⟨s, t⟩, hq, e⟩ := List.mem_map.1 hm
    cases e
    obtain ⟨m, -, h4⟩ := (tagSymbols_eq h3 _ _).1 hq
    obtain ⟨r, hr⟩ := tagSymbol_head h4
    cases hr

/-- Every entry of `__tags__` is importable as a tag of the same name (unless another key stands for the same
symbol, `x` and `%x`). -/
theorem C92_tag (hd : DistinctNames attrs) {syms : Dict Str O} (h : pyModule W attrs = .ok syms) {d : Dict Str O}
    (ht : tagsOf W attrs d) {c : Char} {n : Str} {t : O} (hc : c ≠ '%') (hm : (c :: n, t) ∈ d)
    (hu : ∀ k t', (k, t') ∈ d → k = c :: n ∨ k = '%' :: c :: n → t' = t) : syms.get? ('%' :: c :: n) = some t := by
  rcases pyModule_cases hd h with ⟨h1, -⟩ | ⟨d', l, h2, -, h3, rfl⟩
  · exact absurd ht (h1 d)
  · have : d' = d := by
      obtain ⟨o, ho, -, e⟩ := ht
      obtain ⟨o', ho', -, e'⟩ := h2
      rw [hd _ _ _ ho ho', e'] at e
      exact Option.some.inj e
    subst this
    refine get?_update_of_mem _ _ ((tagSymbols_eq h3 _ _).2 ⟨_, hm, by simp [tagSymbol, hc]⟩) ?_
    intro t' ht'
    obtain ⟨k, hk, e⟩ := (tagSymbols_eq h3 _ _).1 ht'
    refine hu k t' hk ?_
    cases k with
    | nil => cases e
    | cons x xs =>
      simp only [tagSymbol, Option.some.injEq] at e
      split at e
      · exact .inr e
      · cases e; exact .inl rfl

/-- Nothing else is importable. -/
theorem C92_only (hd : DistinctNames attrs) {syms : Dict Str O} (h : pyModule W attrs = .ok syms) {s : Str} {v : O}
    (hs : syms.get? s = some v) :
    (∃ n, s = '$' :: n ∧ n ≠ tagsName ∧ (n, v) ∈ attrs) ∨
    (∃ d n, tagsOf W attrs d ∧ (n, v) ∈ d ∧ W.name v = .ok (some n) ∧ (s = '%' :: n ∨ s = n ∧ n.head? = some '%')) := by
  rcases pyModule_cases hd h with ⟨-, h1⟩ | ⟨d', l, h2, hnm, h3, rfl⟩
  · exact .inl ((h1 _ _).1 hs)
  · rcases get?_update_mem hs with h4 | h4
    · obtain ⟨n, hn, e⟩ := (tagSymbols_eq h3 _ _).1 h4
      refine .inr ⟨d', n, h2, hn, hnm _ hn, ?_⟩
      cases n with
      | nil => cases e
      | cons x xs =>
        simp only [tagSymbol, Option.some.injEq] at e
        split at e
        · rename_i e2; exact .inr ⟨e.symm, by rw [e2]; rfl⟩
        · exact .inl e.symm
    · exact .inl ((symbols_rest hd).1 h4)

/-- The module is rejected exactly if `__tags__` is neither false nor a dictionary, or contains a tag under a name other
than its own, or under an empty name. -/
theorem C92_accepted (hd : DistinctNames attrs) :
    (∃ syms, pyModule W attrs = .ok syms) ↔
      ∀ o, (tagsName, o) ∈ attrs → W.truth o = true →
        ∃ d, W.dict o = some d ∧ ∀ p ∈ d, W.name p.2 = .ok (some p.1) ∧ p.1 ≠ [] := by
  constructor
  · rintro ⟨syms, h⟩ o ho ht
    rcases hdict : W.dict o with _ | d
    · exfalso
      unfold pyModule at h
      simp only at h
      rw [show ('$' :: "__tags__".toList) = ('$' :: tagsName) from rfl, (symbols_get hd).2 ho] at h
      simp only [ht, hdict] at h
      cases h
    · rcases pyModule_cases hd h with ⟨h1, -⟩ | ⟨d', l, h2, hnm, h3, -⟩
      · exact absurd ⟨o, ho, ht, hdict⟩ (h1 d)
      · obtain ⟨o', ho', -, e'⟩ := h2
        rw [hd _ _ _ ho' ho, hdict] at e'
        cases e'
        refine ⟨d, rfl, fun p hp => ⟨hnm p hp, fun e => ?_⟩⟩
        have : ∀ {l r : List (Str × O)}, tagSymbols (E := E) l = .ok r → ∀ p ∈ l, p.1 ≠ [] := by
          intro l
          induction l with
          | nil => intro r _ p hp; cases hp
          | cons q l ih =>
            intro r hr p hp
            obtain ⟨n, t⟩ := q
            rw [tagSymbols] at hr
            split at hr
            · cases hr
            · rename_i s hs
              split at hr
              · cases hr
              · rename_i l' hl'
                rcases List.mem_cons.1 hp with rfl | hp
                · rintro rfl
                  cases hs
                · exact ih hl' p hp
        exact this h3 p hp e
  · intro h
    unfold pyModule
    simp only
    split
    · exact ⟨_, rfl⟩
    · rename_i o ho
      have hom : (tagsName, o) ∈ attrs := (symbols_get hd).1 ho
      split
      · exact ⟨_, rfl⟩
      · rename_i ht
        obtain ⟨d, h1, h2⟩ := h o hom (by simpa using ht)
        obtain ⟨l, hl⟩ := tagSymbols_ok (E := E) (fun p hp => (h2 p hp).2)
        rw [h1]
        simp only [(checkTagNames_ok W).2 (fun p hp => (h2 p hp).1), hl]
        exact ⟨_, rfl⟩

/-! ### Registered tags -/

variable {F : PyFunctions O}

/-- The tag a call registers, if any, and its name. -/
def Registers (W : PyObjects O E) (F : PyFunctions O) (c : RegCall O E) (n : Str) (t : O) : Prop :=
  W.name t = .ok (some n) ∧ (c = .tag (.cls (.ok t)) ∨ (∃ f, c = .tag (.fn f) ∧ t = F.tagFunction f) ∨ c = .tag (.obj t))

theorem registry_run (hF : ∀ f, W.name (F.tagFunction f) = .ok (some (F.funName f))) {cs : List (RegCall O E)}
    {r r' : Registry O} (h : r.run W F cs = .ok r') {n : Str} {t : O} :
    (r'.tags.get? n = some t ↔
      (∃ pre c post, cs = pre ++ c :: post ∧ Registers W F c n t ∧ ∀ x ∈ post, ∀ t', ¬ Registers W F x n t') ∨
      (r.tags.get? n = some t ∧ ∀ x ∈ cs, ∀ t', ¬ Registers W F x n t')) := by
  have inj : ∀ {c n t n' t'}, Registers W F c n t → Registers W F c n' t' → n = n' ∧ t = t' := by
    rintro c n t n' t' ⟨h1, h2⟩ ⟨h3, h4⟩
    have : t = t' := by
      rcases h2 with rfl | ⟨f, rfl, rfl⟩ | rfl <;> rcases h4 with e | ⟨f', e, rfl⟩ | e <;> cases e <;> rfl
    subst this
    rw [h1] at h3
    cases h3
    exact ⟨rfl, rfl⟩
  induction cs generalizing r with
  | nil =>
    cases h
    constructor
    · intro h; exact .inr ⟨h, fun x hx => nomatch hx⟩
    · rintro (⟨pre, c, post, e, -⟩ | ⟨h, -⟩)
      · simp at e
      · exact h
  | cons c cs ih =>
    -- the first call registers `n'` as `t'`, or nothing
    have step : ∀ {r1 : Registry O}, r1.run W F cs = .ok r' →
        ((∃ n' t', Registers W F c n' t' ∧ r1.tags = r.tags.set n' t') ∨
          ((∀ n' t', ¬ Registers W F c n' t') ∧ r1.tags = r.tags)) →
        (r'.tags.get? n = some t ↔
          (∃ pre x post, c :: cs = pre ++ x :: post ∧ Registers W F x n t ∧ ∀ y ∈ post, ∀ t', ¬ Registers W F y n t') ∨
          (r.tags.get? n = some t ∧ ∀ x ∈ c :: cs, ∀ t', ¬ Registers W F x n t')) := by
      intro r1 hr hc
      refine Iff.trans (ih hr) ?_
      have split : (∃ pre x post, c :: cs = pre ++ x :: post ∧ Registers W F x n t ∧
            ∀ y ∈ post, ∀ t', ¬ Registers W F y n t') ↔
          (Registers W F c n t ∧ ∀ y ∈ cs, ∀ t', ¬ Registers W F y n t') ∨
          (∃ pre x post, cs = pre ++ x :: post ∧ Registers W F x n t ∧
            ∀ y ∈ post, ∀ t', ¬ Registers W F y n t') := by
        constructor
        · rintro ⟨pre, x, post, e, h1, h2⟩
          cases pre with
          | nil => cases e; exact .inl ⟨h1, h2⟩
          | cons p pre => cases e; exact .inr ⟨pre, x, post, rfl, h1, h2⟩
        · rintro (⟨h1, h2⟩ | ⟨pre, x, post, rfl, h1, h2⟩)
          · exact ⟨[], c, cs, rfl, h1, h2⟩
          · exact ⟨c :: pre, x, post, rfl, h1, h2⟩
      rw [split]
      simp only [List.forall_mem_cons]
      rcases hc with ⟨n', t', hr', he⟩ | ⟨hno, he⟩
      · rw [he, Dict.get?_set]
        by_cases hn : n' = n
        · subst hn
          rw [if_pos rfl]
          constructor
          · rintro (h | ⟨h1, h2⟩)
            · exact .inl (.inr h)
            · cases h1; exact .inl (.inl ⟨hr', h2⟩)
          · rintro ((⟨h1, h2⟩ | h) | ⟨h1, h2, h3⟩)
            · exact .inr ⟨by rw [(inj hr' h1).2], h2⟩
            · exact .inl h
            · exact absurd hr' (h2 t')
        · rw [if_neg hn]
          constructor
          · rintro (h | ⟨h1, h2⟩)
            · exact .inl (.inr h)
            · exact .inr ⟨h1, fun t'' h'' => hn (inj hr' h'').1, h2⟩
          · rintro ((⟨h1, h2⟩ | h) | ⟨h1, h2, h3⟩)
            · exact absurd (inj hr' h1).1 hn
            · exact .inl h
            · exact .inr ⟨h1, h3⟩
      · rw [he]
        constructor
        · rintro (h | ⟨h1, h2⟩)
          · exact .inl (.inr h)
          · exact .inr ⟨h1, fun t' => hno n t', h2⟩
        · rintro ((⟨h1, h2⟩ | h) | ⟨h1, h2, h3⟩)
          · exact absurd h1 (hno n t)
          · exact .inl h
          · exact .inr ⟨h1, h3⟩
    cases c with
    | tag x =>
      rw [Registry.run] at h
      split at h
      · cases h
      · rename_i r1 hr1
        obtain ⟨n', t', h1, h2, h3⟩ := registry_tag_ok hF hr1
        refine step h (.inl ⟨n', t', ⟨h1, ?_⟩, by rw [h2]⟩)
        rcases h3 with rfl | ⟨f, rfl, rfl⟩ | rfl
        · exact .inl rfl
        · exact .inr (.inl ⟨f, rfl, rfl⟩)
        · exact .inr (.inr rfl)
    | var m o =>
      rw [Registry.run] at h
      refine step h (.inr ⟨?_, rfl⟩)
      rintro n' t' ⟨-, h | ⟨f, h, -⟩ | h⟩ <;> cases h

/-- Whatever is registered: the registry holds under each name the tag that was registered last under it, each tag has
the name it is held under, and a module whose `__tags__` are those of the registry is accepted (names are not empty). -/
theorem C92_registry (hF : ∀ f, W.name (F.tagFunction f) = .ok (some (F.funName f))) {cs : List (RegCall O E)}
    {r : Registry O} (h : Registry.run W F {} cs = .ok r) :
    (∀ n t, r.tags.get? n = some t ↔
      ∃ pre c post, cs = pre ++ c :: post ∧ Registers W F c n t ∧ ∀ x ∈ post, ∀ t', ¬ Registers W F x n t') ∧
    ∀ {attrs : List (Str × O)}, DistinctNames attrs → (∀ o, (tagsName, o) ∈ attrs → W.dict o = some r.tags) →
      (∀ p ∈ r.tags, p.1 ≠ []) → ∃ syms, pyModule W attrs = .ok syms := by
  have h1 : ∀ n t, r.tags.get? n = some t ↔
      ∃ pre c post, cs = pre ++ c :: post ∧ Registers W F c n t ∧ ∀ x ∈ post, ∀ t', ¬ Registers W F x n t' := by
    intro n t
    rw [registry_run hF h]
    constructor
    · rintro (h | ⟨h, -⟩)
      · exact h
      · cases h
    · exact .inl
  refine ⟨h1, fun hd ho hne => (C92_accepted hd).2 (fun o hm ht => ⟨_, ho o hm, fun p hp => ⟨?_, hne p hp⟩⟩)⟩
  have nodup : (Dict.keys r.tags).Nodup := by
    have : ∀ {cs : List (RegCall O E)} {r0 r : Registry O}, (Dict.keys r0.tags).Nodup → r0.run W F cs = .ok r →
        (Dict.keys r.tags).Nodup := by
      intro cs
      induction cs with
      | nil => intro r0 r h0 h; cases h; exact h0
      | cons c cs ih =>
        intro r0 r h0 h
        cases c with
        | tag x =>
          rw [Registry.run] at h
          split at h
          · cases h
          · rename_i r1 hr1
            obtain ⟨n, t, -, e, -⟩ := registry_tag_ok hF hr1
            exact ih (by rw [e]; exact Dict.nodup_set h0 _ _) h
        | var m o => exact ih (r0 := r0.var m o) h0 h
    exact this (by simp [Dict.keys]) h
  have hg : r.tags.get? p.1 = some p.2 := by
    have : ∀ {d : Dict Str O}, (Dict.keys d).Nodup → p ∈ d → d.get? p.1 = some p.2 := by
      intro d
      induction d with
      | nil => intro _ h; cases h
      | cons q d ih =>
        intro hn hp
        rw [Dict.keys, List.map_cons, List.nodup_cons] at hn
        obtain ⟨k, v⟩ := q
        rw [Dict.get?]
        rcases List.mem_cons.1 hp with rfl | hp
        · simp
        · rw [if_neg (fun e => hn.1 (List.mem_map.2 ⟨p, hp, e.symm⟩))]
          exact ih hn.2 hp
    exact this nodup hp
  obtain ⟨_, _, _, -, hreg, -⟩ := (h1 _ _).1 hg
  exact hreg.1

end

/-! Examples -/

/-- Objects: numbers; 100 is a dictionary with the tag 1, whose name is `t`. -/
def exObjects : PyObjects Nat Unit where
  truth := fun o => o != 0
  dict := fun o => if o = 100 then some [(s!!"t", 1)] else if o = 101 then some [(s!!"u", 1)] else none
  name := fun o => if o = 1 then .ok (some (s!!"t")) else .error ()

example : pyModule exObjects [(s!!"__tags__", 100), (s!!"x", 5)] = .ok [(s!!"$x", 5), (s!!"%t", 1)] := by decide
example : pyModule exObjects [(s!!"__tags__", 101), (s!!"x", 5)] = .error .tagName := by decide
example : pyModule exObjects [(s!!"__tags__", 7)] = .error .notDict := by decide
example : pyModule exObjects [(s!!"__tags__", 0), (s!!"y", 1)] = .ok [(s!!"$y", 1)] := by decide
example : pyModule exObjects [(s!!"y", 1)] = .ok [(s!!"$y", 1)] := by decide

/-- Functions 2 and 3, both called `f`; their tags are 12 and 13. -/
def exFunctions : PyFunctions Nat := ⟨(· + 10), fun _ => s!!"f"⟩
def exObjects' : PyObjects Nat Unit :=
  { exObjects with name := fun o => if o = 1 then .ok (some (s!!"t")) else .ok (some (s!!"f")) }

example : (Registry.run exObjects' exFunctions {} [.tag (.fn 2), .tag (.obj 1), .tag (.fn 3)]).map Registry.tags =
    .ok [(s!!"f", 13), (s!!"t", 1)] := by decide
example : ∀ f, exObjects'.name (exFunctions.tagFunction f) = .ok (some (exFunctions.funName f)) := by
  intro f
  simp only [exObjects', exFunctions]
  rw [if_neg (by omega)]

end Verif
