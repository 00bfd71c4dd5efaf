import Verif.Model.StdTags
import Verif.Props.PyModule
import Verif.Model.Loader
import Verif.Props.Pages

/-! C121: the standard tags of HTML. -/

namespace Verif
open Py Spec

/-! ### What is registered -/

/-- The name is a word of the list, written in small letters or in capital letters. -/
def Spec.Cased (l : List Str) (n : Str) : Prop := ∃ w ∈ l, n = w.map Char.toLower ∨ n = w.map Char.toUpper

/-- The tag of a name, if the words of `void` are names of void elements and those of `nonvoid` are names of other elements. -/
def Spec.IsTag (nonvoid void : List Str) (n : Str) (t : TagObj) : Prop :=
  (n = s!!"comment" ∧ t = .comment) ∨ (n = s!!"custom" ∧ t = .custom) ∨
  (n ≠ s!!"comment" ∧ n ≠ s!!"custom" ∧
    (Spec.Cased void n ∧ t = .markup n true .html ∨ ¬ Spec.Cased void n ∧ Spec.Cased nonvoid n ∧ t = .markup n false .html))

theorem createTag_run {W : PyObjects StdObj Unit} (hW : ∀ t, W.name (.tag t) = .ok (some t.name)) (void : Bool) :
    ∀ (l : List Str) (r : Registry StdObj) (cs : List (RegCall StdObj Unit)),
      Registry.run W stdFunctions r (l.flatMap (createTag void) ++ cs) =
        Registry.run W stdFunctions { r with tags := r.tags.update (l.flatMap (fun w =>
          [(w.map Char.toLower, .tag (.markup (w.map Char.toLower) void .html)), (w.map Char.toUpper, .tag (.markup (w.map Char.toUpper) void .html))])) } cs
  | [], r, cs => rfl
  | w :: l, r, cs => by
    simp only [List.flatMap_cons, createTag, List.cons_append, List.nil_append, Registry.run, Registry.tag, Registry.tag.put, hW, TagObj.name,
      Dict.update, lowerName, upperName]
    exact createTag_run hW void l _ cs

theorem mem_created {void : Bool} {l : List Str} {n : Str} {o : StdObj} :
    (n, o) ∈ l.flatMap (fun w =>
        [(w.map Char.toLower, StdObj.tag (.markup (w.map Char.toLower) void .html)), (w.map Char.toUpper, .tag (.markup (w.map Char.toUpper) void .html))]) ↔
      Spec.Cased l n ∧ o = .tag (.markup n void .html) := by
  simp only [List.mem_flatMap, List.mem_cons, Prod.mk.injEq, List.not_mem_nil, or_false, Spec.Cased]
  constructor
  · rintro ⟨w, hw, ⟨rfl, rfl⟩ | ⟨rfl, rfl⟩⟩
    · exact ⟨⟨w, hw, .inl rfl⟩, rfl⟩
    · exact ⟨⟨w, hw, .inr rfl⟩, rfl⟩
  · rintro ⟨⟨w, hw, rfl | rfl⟩, rfl⟩
    · exact ⟨w, hw, .inl ⟨rfl, rfl⟩⟩
    · exact ⟨w, hw, .inr ⟨rfl, rfl⟩⟩

theorem get?_created (d : Dict Str StdObj) (void : Bool) (l : List Str) (n : Str) (o : StdObj) :
    Dict.get? (Dict.update d (l.flatMap (fun w =>
        [(w.map Char.toLower, StdObj.tag (.markup (w.map Char.toLower) void .html)), (w.map Char.toUpper, .tag (.markup (w.map Char.toUpper) void .html))]))) n = some o ↔
      Spec.Cased l n ∧ o = .tag (.markup n void .html) ∨ ¬ Spec.Cased l n ∧ Dict.get? d n = some o := by
  by_cases h : Spec.Cased l n
  · rw [get?_update_of_mem d _ (mem_created.2 ⟨h, rfl⟩) (fun v' hv => (mem_created.1 hv).2)]
    simp [h, eq_comm]
  · rw [get?_update_of_not_mem d _ (by
      rintro hm
      obtain ⟨⟨a, b⟩, h1, rfl⟩ := List.mem_map.1 hm
      exact h (mem_created.1 h1).1)]
    simp [h]

/-- C121. Whatever words the two lists contain: each of them is a tag, in small letters and in capital letters, which is void if it is a word of the
list of void elements; there are two more tags, and no other ones. -/
theorem C121_registered (nonvoid void : List Str) (tags : Dict Str StdObj) :
    ∃ r, Registry.run (stdObjects tags) stdFunctions {} (htmlCalls nonvoid void) = .ok r ∧ r.vars = [] ∧ r.tags.keys.Nodup ∧
      ∀ n o, r.tags.get? n = some o ↔ ∃ t, o = .tag t ∧ Spec.IsTag nonvoid void n t := by
  unfold htmlCalls
  rw [List.append_assoc, createTag_run (fun _ => rfl), createTag_run (fun _ => rfl)]
  refine ⟨_, rfl, rfl, Dict.nodup_set (Dict.nodup_set (Dict.nodup_update (Dict.nodup_update (by simp [Dict.keys]) _) _) _ _) _ _, fun n o => ?_⟩
  show Dict.get? (Dict.set (Dict.set _ (s!!"custom") _) (s!!"comment") _) n = some o ↔ _
  rw [Dict.get?_set, Dict.get?_set]
  unfold Spec.IsTag
  by_cases h1 : s!!"comment" = n
  · subst h1
    constructor
    · intro h; cases h; exact ⟨_, rfl, .inl ⟨rfl, rfl⟩⟩
    · rintro ⟨t, rfl, ⟨-, rfl⟩ | ⟨h, -⟩ | ⟨h, -⟩⟩
      · rfl
      · exact absurd h (by decide)
      · exact absurd rfl h
  · rw [if_neg h1]
    by_cases h2 : s!!"custom" = n
    · subst h2
      constructor
      · intro h; cases h; exact ⟨_, rfl, .inr (.inl ⟨rfl, rfl⟩)⟩
      · rintro ⟨t, rfl, ⟨h, -⟩ | ⟨-, rfl⟩ | ⟨-, h, -⟩⟩
        · exact absurd h.symm h1
        · rfl
        · exact absurd rfl h
    · rw [if_neg h2, get?_created, get?_created]
      constructor
      · rintro (⟨a, rfl⟩ | ⟨a, ⟨b, rfl⟩ | ⟨-, h⟩⟩)
        · exact ⟨_, rfl, .inr (.inr ⟨Ne.symm h1, Ne.symm h2, .inl ⟨a, rfl⟩⟩)⟩
        · exact ⟨_, rfl, .inr (.inr ⟨Ne.symm h1, Ne.symm h2, .inr ⟨a, b, rfl⟩⟩)⟩
        · cases h
      · rintro ⟨t, rfl, ⟨h, -⟩ | ⟨h, -⟩ | ⟨-, -, ⟨a, rfl⟩ | ⟨a, b, rfl⟩⟩⟩
        · exact absurd h.symm h1
        · exact absurd h.symm h2
        · exact .inl ⟨a, rfl⟩
        · exact .inr ⟨a, .inl ⟨b, rfl⟩⟩

/-! ### The symbols of the module -/

theorem Spec.Cased.all {p : Str → Prop} {l : List Str} (h : ∀ w ∈ l, p (w.map Char.toLower) ∧ p (w.map Char.toUpper)) {n : Str}
    (hn : Spec.Cased l n) : p n := by
  obtain ⟨w, hw, rfl | rfl⟩ := hn
  · exact (h w hw).1
  · exact (h w hw).2

theorem Dict.get?_of_mem {K V : Type} [DecidableEq K] {d : Dict K V} (hd : d.keys.Nodup) {k : K} {v : V} (h : (k, v) ∈ d) : d.get? k = some v := by
  induction d with
  | nil => cases h
  | cons x d ih =>
    obtain ⟨k', v'⟩ := x
    simp only [Dict.keys, List.map_cons, List.nodup_cons] at hd
    rcases List.mem_cons.1 h with e | h
    · cases e; simp [Dict.get?]
    · rw [Dict.get?, if_neg, ih hd.2 h]
      rintro rfl
      exact hd.1 (List.mem_map.2 ⟨_, h, rfl⟩)

theorem Dict.pair_of_get? {K V : Type} [DecidableEq K] {d : Dict K V} {k : K} {v : V} (h : d.get? k = some v) : (k, v) ∈ d := by
  induction d with
  | nil => cases h
  | cons x d ih =>
    obtain ⟨k', v'⟩ := x
    rw [Dict.get?] at h
    split at h
    · next e => cases h; subst e; exact List.mem_cons_self ..
    · exact List.mem_cons_of_mem _ (ih h)

theorem Dict.nodup_erase {K V : Type} [DecidableEq K] {d : Dict K V} (h : d.keys.Nodup) (k : K) : (d.erase k).keys.Nodup := by
  rw [Dict.keys_erase]
  exact h.erase _

theorem pyModule_nodup {O E : Type} {W : PyObjects O E} {attrs : List (Str × O)} {syms : Dict Str O} (h : pyModule W attrs = .ok syms) :
    syms.keys.Nodup := by
  unfold pyModule at h
  have h0 : ∀ ps, (Dict.erase (Dict.update ([] : Dict Str O) ps) ('$' :: "__tags__".toList)).keys.Nodup := fun ps =>
    Dict.nodup_erase (Dict.nodup_update (by simp [Dict.keys]) _) _
  simp only at h
  repeat' split at h
  all_goals cases h
  · exact h0 _
  · exact h0 _
  · exact Dict.nodup_update (h0 _) _

/-- Attributes that every module has: distinct names, and no tags. -/
def Spec.Others (taken : List Str) (others : List (Str × StdObj)) : Prop :=
  DistinctNames others ∧ ∀ x ∈ others, x.1 ∉ taken

/-- Tags of a registry whose names are good. -/
theorem stdModule_tags {r : Registry StdObj} {others : List (Str × StdObj)} (hk : r.tags.keys.Nodup) (hne : r.tags ≠ [])
    (hd : DistinctNames (stdAttrs r others)) (hn : ∀ x ∈ r.tags, (stdObjects r.tags).name x.2 = .ok (some x.1))
    (hc : ∀ x ∈ r.tags, ∃ c s, x.1 = c :: s ∧ c ≠ '%') :
    ∃ syms, stdModule r others = .ok syms ∧ (∀ n o, syms.get? ('%' :: n) = some o ↔ r.tags.get? n = some o) ∧
      ∀ n o, n ≠ tagsName → (syms.get? ('$' :: n) = some o ↔ (n, o) ∈ r.vars ++ others) := by
  have htab : (tagsName, StdObj.table) ∈ stdAttrs r others := List.mem_cons_self ..
  have ht : tagsOf (stdObjects r.tags) (stdAttrs r others) r.tags := ⟨.table, htab, by
    show (!r.tags.isEmpty) = true
    cases h : r.tags with
    | nil => exact absurd h hne
    | cons x l => rfl, rfl⟩
  obtain ⟨syms, hs⟩ := (C92_accepted (W := stdObjects r.tags) hd).2 (fun o ho _ => by
    rw [hd _ _ _ ho htab]
    exact ⟨r.tags, rfl, fun p hp => ⟨hn p hp, by obtain ⟨c, s, e, -⟩ := hc p hp; rw [e]; simp⟩⟩)
  refine ⟨syms, hs, fun n o => ⟨fun h => ?_, fun h => ?_⟩, fun n o hne => ?_⟩
  · rcases C92_only hd hs h with ⟨m, e, -⟩ | ⟨d, m, ⟨o', ho', -, e'⟩, hm, -, e⟩
    · cases e
    · rw [hd _ _ _ ho' htab] at e'
      cases e'
      rcases e with e | ⟨e, e2⟩
      · cases e; exact Dict.get?_of_mem hk hm
      · obtain ⟨c, s, e3, hc'⟩ := hc _ hm
        simp only at e3
        rw [e3] at e2
        cases e2
        exact absurd rfl hc'
  · have hm := Dict.pair_of_get? h
    obtain ⟨c, s, e, hc'⟩ := hc _ hm
    simp only at e
    subst e
    refine C92_tag hd hs ht hc' hm ?_
    rintro k t' hk' (rfl | rfl)
    · have := Dict.get?_of_mem hk hk'
      rw [h] at this
      cases this; rfl
    · obtain ⟨c2, s2, e2, hc2⟩ := hc _ hk'
      cases e2
      exact absurd rfl hc2
  · rw [C92_variable hd hs hne]
    show (n, o) ∈ (s!!"__tags__", StdObj.table) :: (r.vars ++ others) ↔ _
    rw [List.mem_cons, or_iff_right]
    rintro e
    cases e
    exact hne rfl

theorem stdAttrs_distinct {r : Registry StdObj} {others : List (Str × StdObj)} (h2 : r.vars = []) (ho : Spec.Others [s!!"__tags__"] others) :
    DistinctNames (stdAttrs r others) := by
  intro n v v' hv hv'
  simp only [stdAttrs, h2, List.cons_append, List.nil_append, List.mem_cons, Prod.mk.injEq] at hv hv'
  rcases hv with ⟨rfl, rfl⟩ | hv <;> rcases hv' with ⟨e, rfl⟩ | hv'
  · rfl
  · exact absurd (List.mem_cons_self ..) (ho.2 _ hv')
  · subst e; exact absurd (List.mem_cons_self ..) (ho.2 _ hv)
  · exact ho.1 _ _ _ hv hv'

/-- What the names of tags are does not depend on the dictionary. -/
theorem stdRun_any (tags : Dict Str StdObj) (r : Registry StdObj) (cs : List (RegCall StdObj Unit)) :
    Registry.run (stdObjects tags) stdFunctions r cs = Registry.run (stdObjects []) stdFunctions r cs := by
  induction cs generalizing r with
  | nil => rfl
  | cons c cs ih =>
    cases c with
    | var n o => exact ih _
    | tag x =>
      have : Registry.tag (stdObjects tags) stdFunctions r x = Registry.tag (stdObjects []) stdFunctions r x := by
        cases x with
        | cls i => cases i <;> rfl
        | fn f => rfl
        | obj o => rfl
      simp only [Registry.run, this]
      cases Registry.tag (stdObjects []) stdFunctions r x with
      | error e => rfl
      | ok r' => exact ih r'

/-- C121. The module `hypertag.html` can be imported, and its tags are the elements of HTML, `%custom` and `%comment`; it has no variables apart from those
that every module has. -/
theorem C121_symbols (others : List (Str × StdObj)) (ho : Spec.Others [s!!"__tags__"] others) :
    ∃ r syms, Registry.run (stdObjects r.tags) stdFunctions {} (htmlCalls htmlTagsNonvoid htmlTagsVoid) = .ok r ∧ stdModule r others = .ok syms ∧
      (∀ n o, syms.get? ('%' :: n) = some o ↔ ∃ t, o = .tag t ∧ Spec.IsTag htmlTagsNonvoid htmlTagsVoid n t) ∧
      ∀ n o, n ≠ s!!"__tags__" → (syms.get? ('$' :: n) = some o ↔ (n, o) ∈ others) := by
  obtain ⟨r, h1, h2, h3, h4⟩ := C121_registered htmlTagsNonvoid htmlTagsVoid []
  have h1' : Registry.run (stdObjects r.tags) stdFunctions {} (htmlCalls htmlTagsNonvoid htmlTagsVoid) = .ok r := by
    rw [stdRun_any]; exact h1
  have hfirst : ∀ n t, Spec.IsTag htmlTagsNonvoid htmlTagsVoid n t → ∃ c s, n = c :: s ∧ c ≠ '%' := by
    have key : ∀ n : Str, (n.head?.map (fun c => c != '%')).getD false = true → ∃ c s, n = c :: s ∧ c ≠ '%' := by
      intro n h
      cases n with
      | nil => cases h
      | cons c s => exact ⟨c, s, rfl, by simpa using h⟩
    rintro n t (⟨rfl, -⟩ | ⟨rfl, -⟩ | ⟨-, -, ⟨h, -⟩ | ⟨-, h, -⟩⟩)
    · exact key _ rfl
    · exact key _ rfl
    · exact key _ (h.all (p := fun n => (n.head?.map (fun c => c != '%')).getD false = true) (by decide +kernel))
    · exact key _ (h.all (p := fun n => (n.head?.map (fun c => c != '%')).getD false = true) (by decide +kernel))
  have hname : ∀ n t, Spec.IsTag htmlTagsNonvoid htmlTagsVoid n t → t.name = n := by
    rintro n t (⟨rfl, rfl⟩ | ⟨rfl, rfl⟩ | ⟨-, -, ⟨-, rfl⟩ | ⟨-, -, rfl⟩⟩) <;> rfl
  have hd := stdAttrs_distinct h2 ho
  obtain ⟨syms, k1, k2, k3⟩ := stdModule_tags (others := others) h3 (by
      intro e
      have := (h4 (s!!"custom") (.tag .custom)).2 ⟨_, rfl, .inr (.inl ⟨rfl, rfl⟩)⟩
      rw [e] at this; cases this) hd
    (fun x hx => by
      obtain ⟨t, e, ht⟩ := (h4 x.1 x.2).1 (Dict.get?_of_mem h3 hx)
      rw [e]
      show Except.ok (some t.name) = _
      rw [hname _ _ ht])
    (fun x hx => by
      obtain ⟨t, e, ht⟩ := (h4 x.1 x.2).1 (Dict.get?_of_mem h3 hx)
      exact hfirst _ _ ht)
  refine ⟨r, syms, h1', k1, fun n o => (k2 n o).trans (h4 n o), fun n o hn => ?_⟩
  rw [k3 n o hn, h2, List.nil_append]

/-- Functions of a text. -/
def Spec.OfText (f : StdFn) : Prop := f ∈ [StdFn.doctype, .dedent, .unique, .merge, .inline, .lower, .upper]

instance (f : StdFn) : Decidable (Spec.OfText f) := by unfold Spec.OfText; infer_instance

/-- C121. The module `hypertag.builtins` can be imported. All of its functions are variables; functions of a text are tags as well, and there are no other
tags; `truncate` is another name of `crop`. -/
theorem C121_builtins (others : List (Str × StdObj))
    (ho : Spec.Others ([s!!"__tags__", s!!"doctype", s!!"dedent", s!!"unique", s!!"merge", s!!"inline", s!!"lower", s!!"upper", s!!"cycle", s!!"changes",
      s!!"crop", s!!"truncate"]) others) :
    ∃ r syms, Registry.run (stdObjects r.tags) stdFunctions {} builtinCalls = .ok r ∧ stdModule r others = .ok syms ∧
      (∀ f : StdFn, syms.get? ('$' :: f.name) = some (.fn f)) ∧ syms.get? (s!!"$truncate") = some (.fn .crop) ∧
      ∀ n o, syms.get? ('%' :: n) = some o ↔ ∃ f, Spec.OfText f ∧ n = f.name ∧ o = .tagFn f := by
  let l : List StdFn := [.doctype, .dedent, .unique, .merge, .inline, .lower, .upper]
  let r : Registry StdObj := 
    ⟨l.map (fun f : StdFn => (f.name, StdObj.tagFn f)), (l ++ ([StdFn.cycle, .changes, .crop] : List StdFn)).map (fun f : StdFn => (f.name, StdObj.fn f)) ++ [(s!!"truncate", .fn .crop)]⟩
  have h1 : Registry.run (stdObjects r.tags) stdFunctions {} builtinCalls = .ok r := rfl
  have hd : DistinctNames (stdAttrs r others) := by
    have hv : ∀ x ∈ (s!!"__tags__", StdObj.table) :: r.vars, ∀ y ∈ (s!!"__tags__", StdObj.table) :: r.vars, x.1 = y.1 → x.2 = y.2 := by decide
    have hn : ∀ x ∈ (s!!"__tags__", StdObj.table) :: r.vars, x.1 ∈ [s!!"__tags__", s!!"doctype", s!!"dedent", s!!"unique", s!!"merge", s!!"inline", s!!"lower",
      s!!"upper", s!!"cycle", s!!"changes", s!!"crop", s!!"truncate"] := by decide
    intro n v v' h h'
    rcases List.mem_append.1 h with h | h <;> rcases List.mem_append.1 h' with h' | h'
    · exact hv _ h _ h' rfl
    · exact absurd (hn _ h) (ho.2 (n, v') h')
    · exact absurd (hn _ h') (ho.2 (n, v) h)
    · exact ho.1 _ _ _ h h'
  have hall : ∀ x ∈ r.tags, ∃ f, Spec.OfText f ∧ x = (f.name, .tagFn f) := by
    intro x hx
    obtain ⟨f, hf, rfl⟩ := List.mem_map.1 hx
    exact ⟨f, hf, rfl⟩
  have hk : r.tags.keys.Nodup := by decide
  obtain ⟨syms, k1, k2, k3⟩ := stdModule_tags (others := others) hk (by decide) hd
    (fun x hx => by obtain ⟨f, -, rfl⟩ := hall x hx; rfl)
    (fun x hx => by
      obtain ⟨f, -, rfl⟩ := hall x hx
      cases f <;> exact ⟨_, _, rfl, by decide⟩)
  refine ⟨r, syms, h1, k1, fun f => (k3 _ _ (by cases f <;> decide)).2 (List.mem_append_left _ (by cases f <;> decide)),
    (k3 _ _ (by decide)).2 (List.mem_append_left _ (by decide)), fun n o => (k2 n o).trans ⟨fun h => ?_, ?_⟩⟩
  · obtain ⟨f, hf, e⟩ := hall _ (Dict.pair_of_get? h)
    cases e
    exact ⟨f, hf, rfl, rfl⟩
  · rintro ⟨f, hf, rfl, rfl⟩
    exact Dict.get?_of_mem hk (List.mem_map.2 ⟨f, hf, rfl⟩)

theorem Dict.get?_update_dict {K V : Type} [DecidableEq K] (d e : Dict K V) (he : e.keys.Nodup) (k : K) :
    (d.update e).get? k = (e.get? k).or (d.get? k) := by
  cases h : e.get? k with
  | none =>
    rw [get?_update_of_not_mem _ _ ((Dict.get?_eq_none_iff _ _).1 h)]; rfl
  | some v =>
    have hm := Dict.pair_of_get? h
    rw [get?_update_of_mem _ _ hm (fun v' h' => by
      have := Dict.get?_of_mem he h'
      rw [h] at this
      cases this; rfl)]
    rfl

/-- C121. The tags that a script is given by `HyperHTML` are the functions of a text and the tags of HTML, whatever the module `builtins` of Python contains. -/
theorem C121_runtime {E : Type} (others others' : List (Str × StdObj)) (ho : Spec.Others [s!!"__tags__"] others)
    (ho' : Spec.Others ([s!!"__tags__", s!!"doctype", s!!"dedent", s!!"unique", s!!"merge", s!!"inline", s!!"lower", s!!"upper", s!!"cycle", s!!"changes",
      s!!"crop", s!!"truncate"]) others')
    (r r' : Registry StdObj) (py text html : Dict Str StdObj) (hpy : ∀ x ∈ py, x.1.head? = some '$')
    (hr' : Registry.run (stdObjects r'.tags) stdFunctions {} builtinCalls = .ok r') (ht : stdModule r' others' = .ok text)
    (hr : Registry.run (stdObjects r.tags) stdFunctions {} (htmlCalls htmlTagsNonvoid htmlTagsVoid) = .ok r) (hh : stdModule r others = .ok html)
    (heap : DictHeap Str StdObj) (file package : Str × StdObj) (hf : file.1 = s!!"$__file__") (hp : package.1 = s!!"$__package__")
    (mutate : Dict Str StdObj → Dict Str StdObj) :
    ∃ d, (translateWith (E := E) [.ok py, .ok text, .ok html] ⟨heap, none⟩ file package mutate).1 = .ok d ∧
      ∀ n o, d.get? ('%' :: n) = some o ↔
        (∃ f, Spec.OfText f ∧ n = f.name ∧ o = .tagFn f) ∨ ∃ t, o = .tag t ∧ Spec.IsTag htmlTagsNonvoid htmlTagsVoid n t := by
  have a3 : ∀ n o, html.get? ('%' :: n) = some o ↔ ∃ t, o = .tag t ∧ Spec.IsTag htmlTagsNonvoid htmlTagsVoid n t := by
    obtain ⟨r1, syms, a1, a2, a3, -⟩ := C121_symbols others ho
    rw [stdRun_any] at hr a1
    have e : r1 = r := Except.ok.inj (a1.symm.trans hr)
    rw [e] at a2
    rw [Except.ok.inj (hh.symm.trans a2)]
    exact a3
  have b3 : ∀ n o, text.get? ('%' :: n) = some o ↔ ∃ f, Spec.OfText f ∧ n = f.name ∧ o = .tagFn f := by
    obtain ⟨r1, syms, a1, a2, -, -, a3⟩ := C121_builtins others' ho'
    rw [stdRun_any] at hr' a1
    have e : r1 = r' := Except.ok.inj (a1.symm.trans hr')
    rw [e] at a2
    rw [Except.ok.inj (ht.symm.trans a2)]
    exact a3
  have hpy' : ∀ n, (Dict.update [] py).get? ('%' :: n) = none := by
    intro n
    rw [get?_update_of_not_mem]
    · rfl
    · intro h
      obtain ⟨x, hx, e⟩ := List.mem_map.1 h
      have := hpy x hx
      rw [e] at this
      cases this
  have hd : (translateWith (E := E) [.ok py, .ok text, .ok html] ⟨heap, none⟩ file package mutate).1 =
      .ok ((((Dict.update [] py).update text).update html |>.set file.1 file.2).set package.1 package.2) := by
    have hm : ∀ (h : DictHeap Str StdObj) (x : Dict Str StdObj) f, (h ++ [x]).modify h.length f = h ++ [f x] := by
      intro h x f
      induction h with
      | nil => rfl
      | cons y h ih => simp [ih]
    have hg : ∀ (h : DictHeap Str StdObj) (x : Dict Str StdObj), (h ++ [x]).getD h.length [] = x := by
      intro h x
      simp [List.getD]
    simp only [translateWith, importBuiltins, fillBuiltins, hm, hg]
  refine ⟨_, hd, fun n o => ?_⟩
  rw [Dict.get?_set, hp, if_neg (by simp), Dict.get?_set, hf, if_neg (by simp),
    Dict.get?_update_dict _ _ (pyModule_nodup hh), Dict.get?_update_dict _ _ (pyModule_nodup ht), hpy']
  cases hx : html.get? ('%' :: n) with
  | none =>
    have : ¬ ∃ t, o = .tag t ∧ Spec.IsTag htmlTagsNonvoid htmlTagsVoid n t := fun h => by rw [(a3 n o).2 h] at hx; cases hx
    rw [or_iff_left this, ← b3]
    simp
  | some x =>
    obtain ⟨t, rfl, hn⟩ := (a3 n x).1 hx
    have : ¬ ∃ f, Spec.OfText f ∧ n = f.name ∧ o = .tagFn f := by
      rintro ⟨f, hf, rfl, -⟩
      have hno : ∀ l : List Str, (∀ w ∈ l, (w.map Char.toLower ≠ f.name) ∧ (w.map Char.toUpper ≠ f.name)) → ¬ Spec.Cased l f.name :=
        fun l hl h => (h.all (p := (· ≠ f.name)) hl) rfl
      rcases hn with ⟨e, -⟩ | ⟨e, -⟩ | ⟨-, -, ⟨h, -⟩ | ⟨-, h, -⟩⟩
      · revert e; cases f <;> decide
      · revert e; cases f <;> decide
      · exact hno _ (by cases f <;> decide +kernel) h
      · exact hno _ (by cases f <;> decide +kernel) h
    rw [or_iff_right this, ← a3, hx]
    simp

/-! ### Scripts -/

/-- Whether the name is that of an element, and whether it is void. -/
def Spec.elementVoid (n : Str) : Option Bool :=
  if htmlTagsVoid.any (fun w => n == w.map Char.toLower || n == w.map Char.toUpper) then some true
  else if htmlTagsNonvoid.any (fun w => n == w.map Char.toLower || n == w.map Char.toUpper) then some false else none

theorem elementVoid_some {n : Str} {v : Bool} (h : Spec.elementVoid n = some v) : Spec.IsTag htmlTagsNonvoid htmlTagsVoid n (.markup n v .html) := by
  have hc : ∀ l : List Str, l.any (fun w => n == w.map Char.toLower || n == w.map Char.toUpper) = true ↔ Spec.Cased l n := by
    intro l
    simp [Spec.Cased]
  have hneq : n ≠ s!!"comment" ∧ n ≠ s!!"custom" := by
    constructor <;> rintro rfl <;> revert h <;> cases v <;> decide +kernel
  refine .inr (.inr ⟨hneq.1, hneq.2, ?_⟩)
  unfold Spec.elementVoid at h
  rw [← hc, ← hc]
  split at h
  · next h1 => cases h; exact .inl ⟨h1, rfl⟩
  · next h1 =>
    split at h
    · next h2 => cases h; exact .inr ⟨h1, h2, rfl⟩
    · cases h

/-- C121. All of these names can be used in scripts. -/
theorem C121_names {n : Str} {v : Bool} (h : Spec.elementVoid n = some v) : TagName n := by
  let ok (n : Str) : Bool := (n.head?.map (fun c => nameStart c && decide (c.toNat < 128))).getD false && n.all nameChar && decide (n ∉ reservedNames) &&
    !(s!!"try").isPrefixOf n && !(s!!"else").isPrefixOf n && n != s!!"context"
  have hok : ok n = true := by
    rcases elementVoid_some h with ⟨-, e⟩ | ⟨-, e⟩ | ⟨-, -, ⟨h, -⟩ | ⟨-, h, -⟩⟩
    · cases e
    · cases e
    · exact h.all (p := fun n => ok n = true) (by decide +kernel)
    · exact h.all (p := fun n => ok n = true) (by decide +kernel)
  simp only [ok, Bool.and_eq_true, List.all_eq_true, decide_eq_true_eq, Bool.not_eq_true', bne_iff_ne] at hok
  obtain ⟨⟨⟨⟨⟨h1, h2⟩, h3⟩, h4⟩, h5⟩, h6⟩ := hok
  refine { start := ?_, chars := h2, notReserved := h3, notTry := fun h => ?_, notElse := fun h => ?_, notContext := h6 }
  · cases n with
    | nil => cases h1
    | cons c s =>
      simp only [List.head?_cons, Option.map_some, Option.getD_some, Bool.and_eq_true, decide_eq_true_eq] at h1
      exact ⟨c, s, rfl, h1⟩
  · rw [List.isPrefixOf_iff_prefix.2 h] at h4; cases h4
  · rw [List.isPrefixOf_iff_prefix.2 h] at h5; cases h5

/-- The void elements of the HTML standard (WHATWG, "Elements", 13.1.2). -/
def Spec.voidElements : List Str :=
  [s!!"area", s!!"base", s!!"br", s!!"col", s!!"embed", s!!"hr", s!!"img", s!!"input", s!!"link", s!!"meta", s!!"source", s!!"track", s!!"wbr"]

/-- C121. The void elements of HTML are void, and besides only the obsolete `command` and `param` are. -/
theorem C121_void (n : Str) : Spec.elementVoid n = some true ↔ Spec.Cased (s!!"command" :: s!!"param" :: Spec.voidElements) n := by
  have hc : ∀ l : List Str, l.any (fun w => n == w.map Char.toLower || n == w.map Char.toUpper) = true ↔ Spec.Cased l n := by
    intro l
    simp [Spec.Cased]
  have h : Spec.elementVoid n = some true ↔ Spec.Cased htmlTagsVoid n := by
    rw [← hc]
    unfold Spec.elementVoid
    split
    · next h => simp [h]
    · next h => split <;> simp [h]
  rw [h]
  constructor
  · rintro ⟨w, hw, e⟩
    have : ∀ w ∈ htmlTagsVoid, w ∈ s!!"command" :: s!!"param" :: Spec.voidElements := by decide
    exact ⟨w, this w hw, e⟩
  · rintro ⟨w, hw, e⟩
    have : ∀ w ∈ s!!"command" :: s!!"param" :: Spec.voidElements, w ∈ htmlTagsVoid := by decide
    exact ⟨w, this w hw, e⟩

/-- The elements of HTML5 (W3C Recommendation 2014, chapter 4), apart from `keygen`, `rb` and `rtc`. -/
def Spec.html5Elements : List Str :=
  [s!!"html", s!!"head", s!!"title", s!!"base", s!!"link", s!!"meta", s!!"style", s!!"body", s!!"article", s!!"section", s!!"nav", s!!"aside", s!!"h1", s!!"h2",
    s!!"h3", s!!"h4", s!!"h5", s!!"h6", s!!"header", s!!"footer", s!!"address", s!!"p", s!!"hr", s!!"pre", s!!"blockquote", s!!"ol", s!!"ul", s!!"li", s!!"dl",
    s!!"dt", s!!"dd", s!!"figure", s!!"figcaption", s!!"div", s!!"main", s!!"a", s!!"em", s!!"strong", s!!"small", s!!"s", s!!"cite", s!!"q", s!!"dfn", s!!"abbr",
    s!!"data", s!!"time", s!!"code", s!!"var", s!!"samp", s!!"kbd", s!!"sub", s!!"sup", s!!"i", s!!"b", s!!"u", s!!"mark", s!!"ruby", s!!"rt", s!!"rp", s!!"bdi",
    s!!"bdo", s!!"span", s!!"br", s!!"wbr", s!!"ins", s!!"del", s!!"img", s!!"iframe", s!!"embed", s!!"object", s!!"param", s!!"video", s!!"audio", s!!"source",
    s!!"track", s!!"map", s!!"area", s!!"table", s!!"caption", s!!"colgroup", s!!"col", s!!"tbody", s!!"thead", s!!"tfoot", s!!"tr", s!!"td", s!!"th", s!!"form",
    s!!"label", s!!"input", s!!"button", s!!"select", s!!"datalist", s!!"optgroup", s!!"option", s!!"textarea", s!!"output", s!!"progress", s!!"meter",
    s!!"fieldset", s!!"legend", s!!"script", s!!"noscript", s!!"template", s!!"canvas"]

/-- C121. All elements of HTML5 are available, void or not as HTML demands, apart from `keygen`, `rb` and `rtc`, which are not. -/
theorem C121_elements {n : Str} (h : Spec.Cased Spec.html5Elements n) :
    Spec.elementVoid n = some (decide (n.map Char.toLower ∈ s!!"param" :: Spec.voidElements)) ∧
    Spec.elementVoid (s!!"keygen") = none ∧ Spec.elementVoid (s!!"rb") = none ∧ Spec.elementVoid (s!!"rtc") = none :=
  ⟨h.all (p := fun n => Spec.elementVoid n = some (decide (n.map Char.toLower ∈ s!!"param" :: Spec.voidElements))) (by decide +kernel),
    by decide +kernel, by decide +kernel, by decide +kernel⟩

section
variable {P X W I : Type}

/-- C121. A page that is written with elements of HTML is rendered as its markup, when the symbols of the module are among those the script is given. -/
theorem C121_page (M : Marks) (U : Uni) [MarksApart M U] (names : Str → Option Char) (E : Env P X W) (hE : Escaping E.ops)
    (σ : StateId) (src : Source P I) (first : Slot) (tagOf : P → TagObj) (strOf : Val P → Str)
    (ext : Nat → Except RenderErr Str → List AttrVal → List (Str × AttrVal) → Except RenderErr Str)
    (others : List (Str × StdObj)) (ho : Spec.Others [s!!"__tags__"] others) (r : Registry StdObj) (syms : Dict Str StdObj)
    (hr : Registry.run (stdObjects r.tags) stdFunctions {} (htmlCalls htmlTagsNonvoid htmlTagsVoid) = .ok r) (hm : stdModule r others = .ok syms)
    (globals : Dict Str (Val P)) (hg : GoodGlobals globals)
    (hs : ∀ s t, syms.get? s = some (.tag t) → ∃ p, Dict.get? globals s = some (.py p) ∧ E.ops.isTag p = true ∧ tagOf p = t)
    (env : Str → Str) (d : Page) (hd : d.Ok M Spec.elementVoid env (KnownVar E.ops globals env)) (hok : ItemsOk d.items) (hne : d.items ≠ [])
    (Mm : Machine P W) (hi : (Mm.states σ).indentation = ['\n']) :
    ∃ ss doc root syms M' node, loadScript M U names (itemText d.items) = .ok ss ∧ analyseDocument src first globals ss = .ok doc ∧
      translDocument E σ doc Mm = (.ok (root, syms), M') ∧ Unfolds tagOf strOf M'.mem.nodes root node ∧
      renderNode ext node = .ok (join ['\n'] (d.lines (fun n => decide (Spec.elementVoid n = some true)) env)) := by
  have hv : (fun n => decide (Spec.elementVoid n = some true)) = fun n => (Spec.elementVoid n).getD false := by
    funext n
    cases Spec.elementVoid n with
    | none => rfl
    | some b => cases b <;> rfl
  rw [hv]
  refine C79_page M U names E hE σ src first tagOf strOf ext globals hg Spec.elementVoid (fun n v h => hs _ _ ?_) env d hd hok hne Mm hi
  obtain ⟨r', syms', a1, a2, a3, -⟩ := C121_symbols others ho
  have hrr : r = r' := by
    obtain ⟨r1, b1, -⟩ := C121_registered htmlTagsNonvoid htmlTagsVoid []
    rw [stdRun_any, b1] at hr a1
    cases hr; cases a1; rfl
  subst hrr
  rw [hm] at a2
  cases a2
  exact (a3 _ _).2 ⟨_, rfl, elementVoid_some h⟩

end

/-! ### Examples -/

namespace StdTagsEx
attribute [local instance] defaultMarks_apart

-- names in small letters and in capital letters, but not mixed
example : Spec.elementVoid (s!!"br") = some true ∧ Spec.elementVoid (s!!"BR") = some true ∧ Spec.elementVoid (s!!"Br") = none ∧
    Spec.elementVoid (s!!"h1") = some false ∧ Spec.elementVoid (s!!"H1") = some false ∧ Spec.elementVoid (s!!"custom") = none := by decide +kernel

-- elements that HTML parsers take for void, too, but which the library does not
example : Spec.elementVoid (s!!"frame") = some false ∧ Spec.elementVoid (s!!"basefont") = some false := by decide +kernel

/-- Attributes that a module has. -/
def others : List (Str × StdObj) := [(s!!"__name__", .other 0), (s!!"__file__", .other 1)]

theorem others_ok : Spec.Others [s!!"__tags__"] others := by
  refine ⟨?_, by decide⟩
  have : ∀ x ∈ others, ∀ y ∈ others, x.1 = y.1 → x.2 = y.2 := by decide
  exact fun n v v' h h' => this _ h _ h' rfl

/-- The registry and the symbols of the module. -/
def registry : Registry StdObj := ((Registry.run (stdObjects []) stdFunctions {} (htmlCalls htmlTagsNonvoid htmlTagsVoid)).toOption).getD {}
def symbols : Dict Str StdObj := (stdModule registry others).toOption.getD []

theorem registry_ok : Registry.run (stdObjects registry.tags) stdFunctions {} (htmlCalls htmlTagsNonvoid htmlTagsVoid) = .ok registry := by
  rw [stdRun_any]
  obtain ⟨r, h, -⟩ := C121_registered htmlTagsNonvoid htmlTagsVoid []
  simp only [registry, h, Except.toOption, Option.getD]

theorem symbols_ok : stdModule registry others = .ok symbols := by
  obtain ⟨r, s, h1, h2, -⟩ := C121_symbols others others_ok
  have h3 := registry_ok
  rw [stdRun_any] at h1 h3
  have e : r = registry := Except.ok.inj (h1.symm.trans h3)
  rw [← e]
  simp only [symbols, ← e, h2, Except.toOption, Option.getD]

attribute [local irreducible] registry symbols

theorem symbols_nodup : symbols.keys.Nodup := pyModule_nodup symbols_ok

/-- Each tag of the module is an object of Python. -/
def globalsOf (d : Dict Str StdObj) : Dict Str (Val Toy.Obj) := d.zipIdx.map (fun x => (x.1.1, .py (.tag x.2)))
def tagIn (d : Dict Str StdObj) : Toy.Obj → TagObj
  | .tag k => match d[k]? with
    | some (_, .tag t) => t
    | _ => .null
  | _ => .null

theorem get?_zipIdx {d : Dict Str StdObj} {s : Str} {o : StdObj} (h : d.get? s = some o) (i : Nat) :
    ∃ k, d[k]? = some (s, o) ∧ Dict.get? ((d.zipIdx i).map (fun x => (x.1.1, (Val.py (Toy.Obj.tag x.2))))) s = some (.py (.tag (i + k))) := by
  induction d generalizing i with
  | nil => cases h
  | cons x d ih =>
    obtain ⟨s', o'⟩ := x
    rw [Dict.get?] at h
    rw [List.zipIdx_cons, List.map_cons, Dict.get?]
    split at h
    · next e => cases h; subst e; exact ⟨0, rfl, by simp⟩
    · next e =>
      obtain ⟨k, h1, h2⟩ := ih h (i + 1)
      refine ⟨k + 1, h1, ?_⟩
      rw [if_neg e, h2]
      congr 3; omega

theorem globals_ok (d : Dict Str StdObj) (s : Str) (t : TagObj) (h : d.get? s = some (.tag t)) :
    ∃ p, Dict.get? (globalsOf d) s = some (.py p) ∧ exPyEnv.ops.isTag p = true ∧ tagIn d p = t := by
  obtain ⟨k, h1, h2⟩ := get?_zipIdx h 0
  rw [Nat.zero_add] at h2
  exact ⟨_, h2, rfl, by simp only [tagIn, h1]⟩

theorem globals_keys (d : Dict Str StdObj) : Dict.keys (globalsOf d) = d.keys := by
  have : ∀ i, ((d.zipIdx i).map (fun x => (x.1.1, (Val.py (Toy.Obj.tag x.2))))).map Prod.fst = d.map Prod.fst := by
    induction d with
    | nil => intro i; rfl
    | cons x d ih => intro i; simp only [List.zipIdx_cons, List.map_cons, ih]
  exact this 0

theorem globals_good : GoodGlobals (globalsOf symbols) := by
  refine ⟨fun x hx => ?_, globals_keys symbols ▸ symbols_nodup⟩
  have : ∀ s ∈ symbols.keys, validSymbol s = true := by
    intro s hs
    obtain ⟨r, syms, h1, h2, h3, h4⟩ := C121_symbols others others_ok
    have h5 := registry_ok
    rw [stdRun_any] at h1 h5
    have e : r = registry := Except.ok.inj (h1.symm.trans h5)
    rw [e, symbols_ok] at h2
    cases h2
    obtain ⟨o, ho⟩ := Option.isSome_iff_exists.1 ((Dict.get?_isSome_iff _ _).2 hs)
    have hv : registry.vars = [] := by
      obtain ⟨r', g1, g2, -⟩ := C121_registered htmlTagsNonvoid htmlTagsVoid []
      rw [← Except.ok.inj (g1.symm.trans h5)]
      exact g2
    have hd := stdAttrs_distinct hv others_ok
    have hnil : ∀ l : List Str, [] ∉ l → ¬ Spec.Cased l [] := by
      rintro l hl ⟨w, hw, e | e⟩ <;> cases w <;> first | exact hl hw | cases e
    rcases C92_only hd symbols_ok ho with ⟨n, rfl, hn, -⟩ | ⟨d, n, -, -, -, hs'⟩
    · cases n with
      | cons c n => rfl
      | nil => exact absurd ((h4 [] o (by decide)).1 ho) (by simp [others])
    · have : ∃ n, s = '%' :: n := by
        rcases hs' with e | ⟨rfl, e⟩
        · exact ⟨_, e⟩
        · cases s with
          | nil => cases e
          | cons c s => cases e; exact ⟨s, rfl⟩
      obtain ⟨n, rfl⟩ := this
      cases n with
      | cons c n => rfl
      | nil =>
        obtain ⟨t, -, ht⟩ := (h3 [] o).1 ho
        rcases ht with ⟨e, -⟩ | ⟨e, -⟩ | ⟨-, -, ⟨h, -⟩ | ⟨-, h, -⟩⟩
        · cases e
        · cases e
        · exact absurd h (hnil _ (by decide))
        · exact absurd h (hnil _ (by decide +kernel))
  exact this _ (globals_keys symbols ▸ List.mem_map.2 ⟨x, hx, rfl⟩)

attribute [local irreducible] globalsOf


def page : Page :=
  .cons 0 (.nested [⟨s!!"ul", []⟩] (s!!"  ") (.cons 0 (.inline [⟨s!!"LI", []⟩] (.verbat (s!!"x"))) (.cons 0 (.empty [⟨s!!"li", []⟩, ⟨s!!"br", []⟩]) .nil))) .nil

example (src : Source Toy.Obj Unit) : ∃ ss doc root syms M' node,
    loadScript defaultMarks asciiUni (fun _ => none) (s!!"ul\n  LI ! x\n  li : br") = .ok ss ∧
    analyseDocument src 0 (globalsOf symbols) ss = .ok doc ∧
    translDocument exPyEnv 0 doc (Toy.machine []) = (.ok (root, syms), M') ∧ Unfolds (tagIn symbols) (fun _ => []) M'.mem.nodes root node ∧
    renderNode (fun _ _ _ _ => .ok []) node = .ok (s!!"<ul>\n  <LI>x</LI>\n  <li><br /></li>\n</ul>") := by
  have hel : ∀ n v, Spec.elementVoid n = some v → ∀ known, ElemOk defaultMarks known ⟨n, []⟩ := fun n v h known =>
    ⟨C121_names h, by simp, by simp, by simp⟩
  have h1 : Spec.elementVoid (s!!"ul") = some false := by decide +kernel
  have h2 : Spec.elementVoid (s!!"LI") = some false := by decide +kernel
  have h3 : Spec.elementVoid (s!!"li") = some false := by decide +kernel
  have h4 : Spec.elementVoid (s!!"br") = some true := by decide +kernel
  have hrun := C121_page defaultMarks asciiUni (fun _ => none) exPyEnv ⟨_, rfl, fun _ _ => rfl⟩ 0 src 0 (tagIn symbols) (fun _ => []) (fun _ _ _ _ => .ok [])
    others others_ok registry symbols registry_ok symbols_ok (globalsOf symbols) globals_good (globals_ok symbols) (fun _ => []) page
    (by
      simp only [page, Page.Ok, PageBlock.Ok, ElemsOk, ContentOk]
      exact ⟨⟨⟨hel _ _ h1 _, false, h1, fun _ => rfl⟩, by unfold Blanks; decide, by decide, by simp [Page.items],
        ⟨⟨hel _ _ h2 _, false, h2, fun _ => rfl⟩, by decide, by unfold TextChar; decide⟩, ⟨hel _ _ h3 _, h3, hel _ _ h4 _, true, h4, by simp⟩, trivial⟩, trivial⟩)
    (by
      have : ∀ t, TrimmedLine t ↔ (t ≠ [] ∧ strip t = t ∧ '\n' ∉ t) := fun t =>
        ⟨fun h => ⟨h.1, h.2, h.3⟩, fun h => ⟨h.1, h.2.1, h.2.2⟩⟩
      simp [page, Page.items, PageBlock.source, PageBlock.under, ItemsOk, Item.Ok, this, Item.isGroup]
      decide) (by simp [page, Page.items]) (Toy.machine []) rfl
  have e : join ['\n'] (page.lines (fun n => decide (Spec.elementVoid n = some true)) (fun _ => [])) = s!!"<ul>\n  <LI>x</LI>\n  <li><br /></li>\n</ul>" := by
    decide +kernel
  rw [e] at hrun
  exact hrun

end StdTagsEx

end Verif
