import Verif.Model.Render
import Verif.Props.Imports

/-
C94: what a script receives from `render()`. C95: the backend for Django.
-/

namespace Verif
open Py

section
variable {O E : Type} (W : PyObjects O E)

/-- Keywords taken by `render()` itself. -/
def takenNames : List Str := [s!!"__file__", s!!"__package__", s!!"__tags__"]

/-- Names that cannot be given to `render()`: they are parameters of the functions on the way. -/
def forbiddenNames : List Str := [s!!"self", s!!"__script__", s!!"builtins", s!!"__builtins__"]

/-- The tags given by the keyword `__tags__`: none if it is missing or false. -/
inductive TagsAre (kw : Dict Str O) : Dict Str O → Prop
  | missing : kw.get? (s!!"__tags__") = none → TagsAre kw []
  | false {t} : kw.get? (s!!"__tags__") = some t → W.truth t = false → TagsAre kw []
  | dict {t d} : kw.get? (s!!"__tags__") = some t → W.truth t = true → W.dict t = some d → TagsAre kw d

theorem mem_keys_filter (a : List Str) (kw : Dict Str O) (n : Str) :
    n ∈ Dict.keys (kw.filter (fun p => p.1 ∉ a)) ↔ n ∈ Dict.keys kw ∧ n ∉ a := by
  simp only [Dict.keys, List.mem_map, List.mem_filter]
  constructor
  · rintro ⟨p, ⟨hp, hn⟩, rfl⟩
    exact ⟨⟨p, hp, rfl⟩, by simpa using hn⟩
  · rintro ⟨⟨p, hp, rfl⟩, hn⟩
    exact ⟨p, ⟨hp, by simpa using hn⟩, rfl⟩

theorem get?_filter_keys (a : List Str) (kw : Dict Str O) (n : Str) :
    Dict.get? (kw.filter (fun p => p.1 ∉ a)) n = if n ∈ a then none else Dict.get? kw n := by
  induction kw with
  | nil => simp [Dict.get?]
  | cons p kw ih =>
    obtain ⟨k, v⟩ := p
    by_cases hk : k ∈ a
    · rw [List.filter_cons_of_neg (by simpa using hk), ih]
      by_cases hn : n ∈ a
      · simp [hn]
      · have : k ≠ n := fun e => hn (e ▸ hk)
        simp [hn, Dict.get?, this]
    · rw [List.filter_cons_of_pos (by simpa using hk)]
      simp only [Dict.get?]
      by_cases e : k = n
      · subst e; simp [hk]
      · rw [if_neg e, if_neg e]; exact ih

theorem tagItems_ok {kw : Dict Str O} {d : Dict Str O} :
    tagItems W (kw.get? (s!!"__tags__")) = .ok d ↔ TagsAre W kw d := by
  constructor
  · intro h
    cases ht : kw.get? (s!!"__tags__") with
    | none =>
      rw [ht] at h
      simp only [tagItems, Except.ok.injEq] at h
      subst h
      exact .missing ht
    | some t =>
      rw [ht] at h
      simp only [tagItems] at h
      split at h
      · rename_i htr
        split at h
        · simp at h
        · rename_i d' hd
          simp only [Except.ok.injEq] at h
          subst h
          exact .dict ht htr hd
      · rename_i htr
        simp only [Except.ok.injEq] at h
        subst h
        exact .false ht (by simpa using htr)
  · rintro (h | ⟨h, h'⟩ | ⟨h, h', h''⟩)
    · rw [h]; rfl
    · rw [h]; simp [tagItems, h']
    · rw [h]; simp [tagItems, h', h'']

theorem bindKeywords_eq (given named : List Str) (kw : Dict Str O) :
    bindKeywords given named kw =
      if ∃ n ∈ given, n ∈ kw.keys then .error .typeError
      else .ok (named.map kw.get?, kw.filter (fun p => p.1 ∉ named)) := by
  simp only [bindKeywords, List.any_eq_true, decide_eq_true_eq]

/-- The variables that are left for the script. -/
def restOf (kw : Dict Str O) : Dict Str O := kw.filter (fun p => p.1 ∉ takenNames)

theorem runtimeRender_eq (kw : Dict Str O) :
    runtimeRender W kw =
      if ∃ n ∈ forbiddenNames, n ∈ kw.keys then .error .typeError
      else
        match tagItems W (kw.get? (s!!"__tags__")) with
        | .error e => .error e
        | .ok t =>
          match makeContext t (restOf kw) with
          | none => .error .index
          | some c => .ok ⟨kw.get? (s!!"__file__"), kw.get? (s!!"__package__"), c⟩ := by
  have filter_nil : ∀ l : Dict Str O, l.filter (fun p => p.1 ∉ ([] : List Str)) = l := by
    intro l; simp
  unfold runtimeRender
  rw [bindKeywords_eq]
  by_cases h1 : ∃ n ∈ ["self".toList, "__script__".toList], n ∈ kw.keys
  · rw [if_pos h1, if_pos]
    obtain ⟨n, hn, hk⟩ := h1
    refine ⟨n, ?_, hk⟩
    simp only [List.mem_cons, List.not_mem_nil, or_false] at hn
    rcases hn with rfl | rfl <;> decide
  · rw [if_neg h1]
    simp only [List.map_cons, List.map_nil]
    change runtimeTranslate W _ _ _ (restOf kw) = _
    unfold runtimeTranslate
    rw [bindKeywords_eq, if_neg (by
      rintro ⟨n, hn, hk⟩
      unfold restOf at hk
      rw [mem_keys_filter] at hk
      simp only [List.mem_cons, List.not_mem_nil, or_false] at hn
      rcases hn with rfl | rfl | rfl | rfl | rfl
      · exact h1 ⟨_, by simp, hk.1⟩
      · exact h1 ⟨_, by simp, hk.1⟩
      · exact hk.2 (by decide)
      · exact hk.2 (by decide)
      · exact hk.2 (by decide))]
    simp only [filter_nil]
    unfold moduleTranslate
    rw [bindKeywords_eq]
    by_cases h2 : s!!"builtins" ∈ kw.keys
    · rw [if_pos ⟨s!!"builtins", by decide, (mem_keys_filter _ _ _).2 ⟨h2, by decide⟩⟩,
        if_pos ⟨s!!"builtins", by decide, h2⟩]
    · rw [if_neg (by
        rintro ⟨n, hn, hk⟩
        unfold restOf at hk
        rw [mem_keys_filter] at hk
        simp only [List.mem_cons, List.not_mem_nil, or_false] at hn
        rcases hn with rfl | rfl | rfl
        · exact h1 ⟨_, by simp, hk.1⟩
        · exact h2 hk.1
        · exact hk.2 (by decide))]
      simp only [filter_nil]
      unfold astTranslate
      rw [bindKeywords_eq]
      by_cases h3 : s!!"__builtins__" ∈ kw.keys
      · rw [if_pos ⟨s!!"__builtins__", by decide, (mem_keys_filter _ _ _).2 ⟨h3, by decide⟩⟩,
          if_pos ⟨s!!"__builtins__", by decide, h3⟩]
      · rw [if_neg (by
          rintro ⟨n, hn, hk⟩
          unfold restOf at hk
          rw [mem_keys_filter] at hk
          simp only [List.mem_cons, List.not_mem_nil, or_false] at hn
          rcases hn with rfl | rfl | rfl
          · exact h1 ⟨_, by simp, hk.1⟩
          · exact h3 hk.1
          · exact hk.2 (by decide))]
        simp only [filter_nil]
        rw [if_neg]
        · rfl
        · rintro ⟨n, hn, hk⟩
          simp only [forbiddenNames, List.mem_cons, List.not_mem_nil, or_false] at hn
          rcases hn with rfl | rfl | rfl | rfl
          · exact h1 ⟨_, by simp, hk⟩
          · exact h1 ⟨"__script__".toList, by simp, hk⟩
          · exact h2 hk
          · exact h3 hk

/-- C94: `render(script, **kw)` gets as far as the script iff no keyword is one of the four names of
parameters on the way, `__tags__` is a dictionary if it is true, and no name is empty. -/
theorem C94_accepted (kw : Dict Str O) :
    (∃ r, runtimeRender W kw = .ok r) ↔
      (∀ n ∈ forbiddenNames, n ∉ kw.keys) ∧ [] ∉ kw.keys ∧ ∃ d, TagsAre W kw d ∧ [] ∉ d.keys := by
  rw [runtimeRender_eq]
  have hmem : ∀ (d : Dict Str O), (∃ p ∈ d, p.1 = []) ↔ [] ∈ Dict.keys d := by
    intro d; simp [Dict.keys]
  constructor
  · rintro ⟨r, h⟩
    split at h
    · simp at h
    · rename_i h1
      split at h
      · simp at h
      · rename_i t ht
        split at h
        · simp at h
        · rename_i c hc
          have hne : ¬ ∃ p ∈ t ++ restOf kw, p.1 = [] := by
            rw [← C62_empty, hc]; simp
          refine ⟨fun n hn hk => h1 ⟨n, hn, hk⟩, ?_, t, (tagItems_ok W).1 ht, ?_⟩
          · intro hk
            have : [] ∈ Dict.keys (restOf kw) := (mem_keys_filter _ _ _).2 ⟨hk, by decide⟩
            obtain ⟨p, hp, e⟩ := (hmem _).2 this
            exact hne ⟨p, List.mem_append_right _ hp, e⟩
          · intro hk
            obtain ⟨p, hp, e⟩ := (hmem _).2 hk
            exact hne ⟨p, List.mem_append_left _ hp, e⟩
  · rintro ⟨h1, h2, d, hd, h3⟩
    rw [if_neg (fun ⟨n, hn, hk⟩ => h1 n hn hk), (tagItems_ok W).2 hd]
    dsimp only
    cases hc : makeContext d (restOf kw) with
    | some c => exact ⟨_, rfl⟩
    | none =>
      obtain ⟨p, hp, e⟩ := (C62_empty _ _).1 hc
      rcases List.mem_append.1 hp with hp | hp
      · exact (h3 ((hmem _).1 ⟨p, hp, e⟩)).elim
      · exact (h2 ((mem_keys_filter _ _ _).1 ((hmem _).1 ⟨p, hp, e⟩)).1).elim

/-- C94: what the script receives: the file and the package, each other keyword as a variable of that name
and each tag as a tag of that name, and nothing else. (Names have no marks, as names of Python variables.) -/
theorem C94_received (kw d : Dict Str O) (hkw : kw.keys.Nodup) (hd : d.keys.Nodup) (ht : TagsAre W kw d)
    (hn : ∀ n ∈ d.keys ++ kw.keys, n ≠ [] ∧ n.head? ≠ some '%' ∧ n.head? ≠ some '$')
    (hf : ∀ n ∈ forbiddenNames, n ∉ kw.keys) :
    ∃ r, runtimeRender W kw = .ok r ∧
      r.file = kw.get? (s!!"__file__") ∧ r.package = kw.get? (s!!"__package__") ∧
      (∀ n, r.context.get? ('$' :: n) = if n ∈ takenNames then none else kw.get? n) ∧
      (∀ n, r.context.get? ('%' :: n) = d.get? n) ∧
      (∀ k, k.head? ≠ some '%' → k.head? ≠ some '$' → r.context.get? k = none) := by
  have hnd : (restOf kw).keys.Nodup := by
    refine List.Nodup.sublist ?_ hkw
    exact List.Sublist.map _ List.filter_sublist
  obtain ⟨c, h1, h2, h3, h4⟩ := C62_plain d (restOf kw) hd hnd (by
    intro n hm
    rcases List.mem_append.1 hm with hm | hm
    · exact hn n (List.mem_append_left _ hm)
    · exact hn n (List.mem_append_right _ ((mem_keys_filter _ _ _).1 hm).1))
  refine ⟨⟨kw.get? (s!!"__file__"), kw.get? (s!!"__package__"), c⟩, ?_, rfl, rfl, ?_, h3, h4⟩
  · rw [runtimeRender_eq, if_neg (fun ⟨n, hm, hk⟩ => hf n hm hk), (tagItems_ok W).2 ht]
    dsimp only
    rw [h1]
  · intro n
    rw [h2]
    exact get?_filter_keys _ _ _

/-- C94: the exception is `TypeError` iff one of the four names is used. -/
theorem C94_typeError (kw : Dict Str O) :
    runtimeRender W kw = .error .typeError ↔ ∃ n ∈ forbiddenNames, n ∈ kw.keys := by
  rw [runtimeRender_eq]
  constructor
  · intro h
    split at h
    · assumption
    · exfalso
      split at h
      · rename_i e he
        cases htg : kw.get? (s!!"__tags__") with
        | none => rw [htg] at he; simp [tagItems] at he
        | some t =>
          rw [htg] at he
          simp only [tagItems] at he
          split at he
          · split at he
            · simp only [Except.error.injEq] at he h
              rw [← he] at h; simp at h
            · simp at he
          · simp at he
      · split at h <;> simp at h
  · intro h
    rw [if_pos h]

/-! ### Django -/

variable (str : Str → O)

/-- C95: the template that is found is the first file that exists. -/
theorem C95_template (read : Str → Option Str) (files : List Str) (t : DjTemplate) :
    getTemplate read files = .ok t ↔
      ∃ before f after, files = before ++ f :: after ∧ (∀ g ∈ before, read g = none) ∧
        read f = some t.view ∧ t.filename = some f := by
  induction files with
  | nil => simp [getTemplate]
  | cons g files ih =>
    simp only [getTemplate]
    cases hg : read g with
    | some script =>
      simp only [Except.ok.injEq]
      constructor
      · rintro rfl
        exact ⟨[], g, files, rfl, by simp, hg, rfl⟩
      · rintro ⟨before, f, after, e, hb, hr, hf⟩
        cases before with
        | nil =>
          simp only [List.nil_append, List.cons.injEq] at e
          obtain ⟨rfl, rfl⟩ := e
          rw [hg] at hr
          simp only [Option.some.injEq] at hr
          obtain ⟨v, fn⟩ := t
          simp_all
        | cons b before =>
          simp only [List.cons_append, List.cons.injEq] at e
          have := hb b (by simp)
          rw [← e.1, hg] at this
          simp at this
    | none =>
      constructor
      · intro h
        cases hr : getTemplate read files with
        | error tr => rw [hr] at h; simp at h
        | ok t' =>
          rw [hr] at h
          simp only [Except.ok.injEq] at h
          subst h
          obtain ⟨before, f, after, e, hb, h1, h2⟩ := ih.1 hr
          refine ⟨g :: before, f, after, by simp [e], ?_, h1, h2⟩
          intro x hx
          rcases List.mem_cons.1 hx with rfl | hx
          · exact hg
          · exact hb x hx
      · rintro ⟨before, f, after, e, hb, hr, hf⟩
        cases before with
        | nil =>
          simp only [List.nil_append, List.cons.injEq] at e
          rw [← e.1, hg] at hr
          simp at hr
        | cons b before =>
          simp only [List.cons_append, List.cons.injEq] at e
          rw [ih.2 ⟨before, f, after, e.2, fun x hx => hb x (by simp [hx]), hr, hf⟩]

/-- C95: if no file exists then the exception lists all files, in order. -/
theorem C95_missing (read : Str → Option Str) (files tried : List Str) :
    getTemplate read files = .error tried ↔ (∀ f ∈ files, read f = none) ∧ tried = files := by
  induction files generalizing tried with
  | nil => simp [getTemplate, eq_comm]
  | cons g files ih =>
    simp only [getTemplate]
    cases hg : read g with
    | some script => simp [hg]
    | none =>
      cases hr : getTemplate read files with
      | ok t =>
        have := fun h => ((ih files).2 h)
        simp only [reduceCtorEq, List.mem_cons, forall_eq_or_imp, false_iff]
        rintro ⟨⟨_, h⟩, _⟩
        have := (ih files).2 ⟨h, rfl⟩
        rw [hr] at this
        simp at this
      | error tr =>
        obtain ⟨h1, rfl⟩ := (ih tr).1 hr
        simp only [Except.error.injEq, List.mem_cons, forall_eq_or_imp]
        exact ⟨fun e => ⟨⟨hg, h1⟩, e.symm⟩, fun h => h.2.symm⟩

/-- The value of a name in a template rendered for a request: that of the request, or of the dictionary of
the caller. -/
def djValue (context : Dict Str O) (request : Option (DjRequest O)) (n : Str) : Option O :=
  match request with
  | none => context.get? n
  | some r =>
    if n = s!!"request" then some r.request
    else if n = s!!"csrf_input" then some r.csrfInput
    else if n = s!!"csrf_token" then some r.csrfToken
    else context.get? n

/-- The file a template is told to come from: as the caller says, otherwise its own file. -/
def djFile (context : Dict Str O) (t : DjTemplate) : Option O :=
  match context.get? (s!!"__file__"), t.filename with
  | some f, _ => some f
  | none, some (c :: f) => some (str (c :: f))
  | none, _ => none

theorem djContext_facts (t : DjTemplate) (context : Option (Dict Str O)) (request : Option (DjRequest O)) :
    (∀ n, (djContext str t context request).get? n =
      if n = s!!"__file__" then djFile str (context.getD []) t else djValue (context.getD []) request n) ∧
    (∀ n ∈ (djContext str t context request).keys, n ∈ (context.getD []).keys ∨
      n ∈ [s!!"request", s!!"csrf_input", s!!"csrf_token", s!!"__file__"]) ∧
    ((context.getD []).keys.Nodup → (djContext str t context request).keys.Nodup) := by
  have step : ∀ c : Dict Str O, (∀ n, c.get? n = djValue (context.getD []) request n) →
      (∀ n ∈ c.keys, n ∈ (context.getD []).keys ∨
        n ∈ [s!!"request", s!!"csrf_input", s!!"csrf_token", s!!"__file__"]) →
      ((context.getD []).keys.Nodup → c.keys.Nodup) →
      ∀ c', c' = (match t.filename with
        | none => c
        | some f => if f ≠ [] ∧ "__file__".toList ∉ c.keys then c.set "__file__".toList (str f) else c) →
      (∀ n, c'.get? n =
        if n = s!!"__file__" then djFile str (context.getD []) t else djValue (context.getD []) request n) ∧
      (∀ n ∈ c'.keys, n ∈ (context.getD []).keys ∨
        n ∈ [s!!"request", s!!"csrf_input", s!!"csrf_token", s!!"__file__"]) ∧
      ((context.getD []).keys.Nodup → c'.keys.Nodup) := by
    intro c hc hk hnd c' e
    have hff : djValue (context.getD []) request (s!!"__file__") = (context.getD []).get? (s!!"__file__") := by
      cases request <;> rfl
    have same : (t.filename = none ∨ t.filename = some [] ∨ s!!"__file__" ∈ c.keys) →
        ∀ n, c.get? n = if n = s!!"__file__" then djFile str (context.getD []) t
          else djValue (context.getD []) request n := by
      intro h n
      split
      · rename_i en
        subst en
        rw [hc, hff]
        cases hg : (context.getD []).get? (s!!"__file__") with
        | some f => simp only [djFile, hg]
        | none =>
          rcases h with h | h | h
          · simp only [djFile, hg, h]
          · simp only [djFile, hg, h]
          · rw [← Dict.get?_isSome_iff, hc, hff, hg] at h
            simp at h
      · exact hc n
    cases hf : t.filename with
    | none =>
      rw [hf] at e
      subst e
      exact ⟨same (.inl hf), hk, hnd⟩
    | some f =>
      rw [hf] at e
      dsimp only at e
      by_cases h : f ≠ [] ∧ "__file__".toList ∉ c.keys
      · rw [if_pos h] at e
        subst e
        refine ⟨?_, ?_, fun h' => Dict.nodup_set (hnd h') _ _⟩
        · intro n
          rw [Dict.get?_set]
          by_cases en : n = s!!"__file__"
          · subst en
            rw [if_pos (show "__file__".toList = s!!"__file__" from rfl), if_pos rfl]
            have hg : (context.getD []).get? (s!!"__file__") = none := by
              rw [← hff, ← hc]
              exact (Dict.get?_eq_none_iff _ _).2 h.2
            cases f with
            | nil => exact (h.1 rfl).elim
            | cons a f => simp only [djFile, hg, hf]
          · rw [if_neg (fun e => en e.symm), if_neg en]
            exact hc n
        · intro n hn
          rw [Dict.keys_set] at hn
          split at hn
          · exact hk n hn
          · rcases List.mem_append.1 hn with hn | hn
            · exact hk n hn
            · rw [List.mem_singleton.1 hn]; exact .inr (by decide)
      · rw [if_neg h] at e
        subst e
        refine ⟨same ?_, hk, hnd⟩
        by_cases hfe : f = []
        · subst hfe; exact .inr (.inl hf)
        · refine .inr (.inr ?_)
          by_contra hm
          exact h ⟨hfe, hm⟩
  cases request with
  | none =>
    exact step (context.getD []) (fun n => rfl) (fun n hn => .inl hn) id _ rfl
  | some r =>
    refine step (((context.getD []).set "request".toList r.request |>.set "csrf_input".toList r.csrfInput).set
        "csrf_token".toList r.csrfToken) ?_ ?_ ?_ _ rfl
    · intro n
      rw [Dict.get?_set, Dict.get?_set, Dict.get?_set]
      simp only [djValue]
      by_cases h1 : n = s!!"request"
      · subst h1; rfl
      · by_cases h2 : n = s!!"csrf_input"
        · subst h2; rfl
        · by_cases h3 : n = s!!"csrf_token"
          · subst h3; rfl
          · rw [if_neg (fun e => h3 e.symm), if_neg (fun e => h2 e.symm), if_neg (fun e => h1 e.symm),
              if_neg h1, if_neg h2, if_neg h3]
    · intro n hn
      simp only [Dict.keys_set] at hn
      by_cases h1 : n = s!!"request"
      · subst h1; exact .inr (by decide)
      · by_cases h2 : n = s!!"csrf_input"
        · subst h2; exact .inr (by decide)
        · by_cases h3 : n = s!!"csrf_token"
          · subst h3; exact .inr (by decide)
          · refine .inl ?_
            have : (((context.getD []).set "request".toList r.request |>.set "csrf_input".toList r.csrfInput).set
                "csrf_token".toList r.csrfToken).get? n = (context.getD []).get? n := by
              rw [Dict.get?_set, Dict.get?_set, Dict.get?_set,
                if_neg (fun e => h3 e.symm), if_neg (fun e => h2 e.symm), if_neg (fun e => h1 e.symm)]
            rw [← Dict.get?_isSome_iff, ← this, Dict.get?_isSome_iff]
            simpa only [Dict.keys_set] using hn
    · intro h
      exact Dict.nodup_set (Dict.nodup_set (Dict.nodup_set h _ _) _ _) _ _

/-- C95: what a template receives when it is rendered for a request: the variables of the caller's
dictionary, those of the request, its own file unless the caller gives one. -/
theorem C95_received (t : DjTemplate) (context : Option (Dict Str O)) (request : Option (DjRequest O))
    (d : Dict Str O) (hc : (context.getD []).keys.Nodup) (hd : d.keys.Nodup)
    (ht : TagsAre W (context.getD []) d)
    (hn : ∀ n ∈ d.keys ++ (context.getD []).keys, n ≠ [] ∧ n.head? ≠ some '%' ∧ n.head? ≠ some '$')
    (hf : ∀ n ∈ forbiddenNames, n ∉ (context.getD []).keys) :
    ∃ r, (djRender W str t context request).1 = .ok r ∧
      r.file = djFile str (context.getD []) t ∧
      r.package = (context.getD []).get? (s!!"__package__") ∧
      (∀ n, n ∉ takenNames → r.context.get? ('$' :: n) = djValue (context.getD []) request n) ∧
      (∀ n, r.context.get? ('%' :: n) = d.get? n) := by
  obtain ⟨h1, h2, h3⟩ := djContext_facts str t context request
  have hv : ∀ n ∈ [s!!"__package__", s!!"__tags__"],
      djValue (context.getD []) request n = (context.getD []).get? n := by
    intro n hm
    simp only [List.mem_cons, List.not_mem_nil, or_false] at hm
    rcases hm with rfl | rfl <;> cases request <;> rfl
  have htg : (djContext str t context request).get? (s!!"__tags__") = (context.getD []).get? (s!!"__tags__") := by
    rw [h1, if_neg (by decide), hv _ (by decide)]
  obtain ⟨r, e, e1, e2, e3, e4, _⟩ := C94_received W (djContext str t context request) d (h3 hc) hd (by
      cases ht with
      | missing h => exact .missing (htg.trans h)
      | false h h' => exact .false (htg.trans h) h'
      | dict h h' h'' => exact .dict (htg.trans h) h' h'') (by
      intro n hm
      rcases List.mem_append.1 hm with hm | hm
      · exact hn n (List.mem_append_left _ hm)
      · rcases h2 n hm with h | h
        · exact hn n (List.mem_append_right _ h)
        · simp only [List.mem_cons, List.not_mem_nil, or_false] at h
          rcases h with rfl | rfl | rfl | rfl <;> decide) (by
      intro n hm hk
      rcases h2 n hk with h | h
      · exact hf n hm h
      · revert hm
        simp only [List.mem_cons, List.not_mem_nil, or_false] at h
        rcases h with rfl | rfl | rfl | rfl <;> decide)
  refine ⟨r, e, ?_, ?_, ?_, e4⟩
  · rw [e1, h1, if_pos rfl]
  · rw [e2, h1, if_neg (by decide), hv _ (by decide)]
  · intro n hm
    rw [e3, if_neg hm, h1, if_neg]
    rintro rfl
    exact hm (by decide)

/-- C95 (templates rendered one after another, each with a dictionary of its own): each one receives its own
file and its own request, and nothing of the others. With a dictionary that is shared this is false
(`C95_not_in_general`). -/
theorem C95_own_partial (ts : List (DjTemplate × Option (DjRequest O) × Dict Str O))
    (hall : ∀ x ∈ ts, x.2.2.keys.Nodup ∧ s!!"__tags__" ∉ x.2.2.keys ∧ s!!"__file__" ∉ x.2.2.keys ∧
      (∀ n ∈ x.2.2.keys, n ≠ [] ∧ n.head? ≠ some '%' ∧ n.head? ≠ some '$') ∧
      (∀ n ∈ forbiddenNames, n ∉ x.2.2.keys)) :
    List.Forall₂ (fun x res => ∃ r : Received O, res = Except.ok r ∧
        r.file = (match x.1.filename with | some (c :: f) => some (str (c :: f)) | _ => none) ∧
        ∀ n, n ∉ takenNames → r.context.get? ('$' :: n) = djValue x.2.2 x.2.1 n)
      ts (ts.map (fun x => (djRender W str x.1 (some x.2.2) x.2.1).1)) := by
  induction ts with
  | nil => exact .nil
  | cons x ts ih =>
    refine .cons ?_ (ih (fun y hy => hall y (by simp [hy])))
    obtain ⟨h1, h2, h3, h4, h5⟩ := hall x (by simp)
    obtain ⟨r, e, e1, _, e3, _⟩ := C95_received W str x.1 (some x.2.2) x.2.1 [] h1 (by simp [Dict.keys])
      (.missing ((Dict.get?_eq_none_iff _ _).2 h2)) (by simpa [Dict.keys] using h4) h5
    refine ⟨r, e, ?_, e3⟩
    rw [e1]
    have : x.2.2.get? (s!!"__file__") = none := (Dict.get?_eq_none_iff _ _).2 h3
    simp only [djFile, Option.getD_some, this]
    split <;> simp_all

/-- The last request of a sequence of renderings, or else the one before. -/
def lastRequest (before : Option (DjRequest O)) (ts : List (DjTemplate × Option (DjRequest O))) :
    Option (DjRequest O) :=
  ((ts.reverse.findSome? (·.2)).or before)

theorem djValue_again (c c' : Dict Str O) (q q' : Option (DjRequest O))
    (h : ∀ n, n ≠ s!!"__file__" → c'.get? n = djValue c q n) :
    ∀ n, n ≠ s!!"__file__" → djValue c' q' n = djValue c (q'.or q) n := by
  intro n hn
  cases q' with
  | none => exact h n hn
  | some r =>
    simp only [djValue, Option.some_or]
    split
    · rfl
    · split
      · rfl
      · split
        · rfl
        · rw [h n hn]
          cases q with
          | none => rfl
          | some r' => simp only [djValue]; simp_all

/-- C95 (what exactly happens with one dictionary for several templates): every template receives the
variables of the dictionary, and the request of the last template up to it that had one. -/
theorem C95_shared (c : Dict Str O) (hc : c.keys.Nodup) (ht : s!!"__tags__" ∉ c.keys)
    (hn : ∀ n ∈ c.keys, n ≠ [] ∧ n.head? ≠ some '%' ∧ n.head? ≠ some '$')
    (hf : ∀ n ∈ forbiddenNames, n ∉ c.keys)
    (ts : List (DjTemplate × Option (DjRequest O))) (i : Nat) (hi : i < ts.length) :
    ∃ r, (djRenderAll W str c ts)[i]? = some (.ok r) ∧
      ∀ n, n ∉ takenNames → r.context.get? ('$' :: n) = djValue c (lastRequest none (ts.take (i + 1))) n := by
  have gen : ∀ (ts : List (DjTemplate × Option (DjRequest O))) (c' : Dict Str O) (q : Option (DjRequest O)) (i : Nat),
      c'.keys.Nodup → (∀ n, n ≠ s!!"__file__" → c'.get? n = djValue c q n) →
      (∀ n ∈ c'.keys, n ∈ c.keys ∨ n ∈ [s!!"request", s!!"csrf_input", s!!"csrf_token", s!!"__file__"]) →
      i < ts.length →
      ∃ r, (djRenderAll W str c' ts)[i]? = some (.ok r) ∧
        ∀ n, n ∉ takenNames → r.context.get? ('$' :: n) = djValue c (lastRequest q (ts.take (i + 1))) n := by
    intro ts
    induction ts with
    | nil => intro c' q i _ _ _ hi; simp at hi
    | cons x ts ih =>
      intro c' q i hnd hval hkeys hi
      obtain ⟨t, rq⟩ := x
      have hpl : ∀ n ∈ c'.keys, n ≠ [] ∧ n.head? ≠ some '%' ∧ n.head? ≠ some '$' := by
        intro n hm
        rcases hkeys n hm with h | h
        · exact hn n h
        · simp only [List.mem_cons, List.not_mem_nil, or_false] at h
          rcases h with rfl | rfl | rfl | rfl <;> decide
      have hfb : ∀ n ∈ forbiddenNames, n ∉ c'.keys := by
        intro n hm hk
        rcases hkeys n hk with h | h
        · exact hf n hm h
        · revert hm
          simp only [List.mem_cons, List.not_mem_nil, or_false] at h
          rcases h with rfl | rfl | rfl | rfl <;> decide
      have htg : c'.get? (s!!"__tags__") = none := by
        rw [hval _ (by decide)]
        have : c.get? (s!!"__tags__") = none := (Dict.get?_eq_none_iff _ _).2 ht
        cases q with
        | none => exact this
        | some r' => simp only [djValue]; rw [if_neg (by decide), if_neg (by decide), if_neg (by decide), this]
      cases i with
      | zero =>
        obtain ⟨r, e, _, _, e3, _⟩ := C95_received W str t (some c') rq [] hnd (by simp [Dict.keys])
          (.missing htg) (by simpa [Dict.keys] using hpl) hfb
        refine ⟨r, by simp [djRenderAll, e], ?_⟩
        intro n hm
        rw [e3 n hm]
        have hne : n ≠ s!!"__file__" := by rintro rfl; exact hm (by decide)
        have := djValue_again c c' q rq hval n hne
        simpa [lastRequest] using this
      | succ i =>
        obtain ⟨f1, f2, f3⟩ := djContext_facts str t (some c') rq
        obtain ⟨r, e, h⟩ := ih (djContext str t (some c') rq) (rq.or q) i (f3 hnd) (by
            intro n hne
            rw [f1, if_neg hne]
            exact djValue_again c c' q rq hval n hne) (by
            intro n hm
            rcases f2 n hm with h | h
            · exact hkeys n h
            · exact .inr h) (by simpa using hi)
        refine ⟨r, by simpa [djRenderAll, djRender] using e, ?_⟩
        intro n hm
        rw [h n hm]
        simp only [lastRequest, List.take_succ_cons, List.reverse_cons, List.findSome?_append]
        cases (ts.take (i + 1)).reverse.findSome? (·.2) <;> cases rq <;> simp
  exact gen ts c none i hc (fun n _ => rfl) (fun n hm => .inl hm) hi

end

/-! ### Examples and the counterexample -/

/-- Objects of the examples: strings, and a dictionary of two tags. -/
def exPassed : PyObjects Str Unit where
  truth := fun s => s ≠ []
  dict := fun s => if s = s!!"<dict>" then some [(s!!"card", s!!"<tag card>"), (s!!"%menu", s!!"<tag menu>")] else none
  name := fun _ => .ok none

example : runtimeRender exPassed [(s!!"title", s!!"T"), (s!!"__file__", s!!"/a.hy"), (s!!"__tags__", s!!"<dict>")] =
    .ok ⟨some (s!!"/a.hy"), none, [(s!!"%card", s!!"<tag card>"), (s!!"%menu", s!!"<tag menu>"), (s!!"$title", s!!"T")]⟩ := by
  decide +kernel
example : runtimeRender exPassed [(s!!"builtins", s!!"T")] = .error .typeError := by decide +kernel
example : runtimeRender exPassed [(s!!"__tags__", s!!"tags")] = .error .attribute := by decide +kernel

/-- C95 fails for a dictionary used twice, as `Template.render` adds to the dictionary of its caller: the
second template is told to come from the file of the first one (its relative imports are searched for in
the wrong folder), and though it is rendered without a request it receives the request and the token of
the first one. -/
theorem C95_not_in_general :
    ∃ (t t' : DjTemplate) (r : DjRequest Str) (r' : Received Str),
      djRenderAll exPassed id [(s!!"title", s!!"T")] [(t, some r), (t', none)] =
        [.ok ⟨some (s!!"/a/x.hy"), none, [(s!!"$title", s!!"T"), (s!!"$request", s!!"R"),
          (s!!"$csrf_input", s!!"I"), (s!!"$csrf_token", s!!"K")]⟩, .ok r'] ∧
      t'.filename = some (s!!"/b/y.hy") ∧ r'.file = some (s!!"/a/x.hy") ∧
      r'.context.get? (s!!"$csrf_token") = some r.csrfToken := by
  refine ⟨⟨[], some (s!!"/a/x.hy")⟩, ⟨[], some (s!!"/b/y.hy")⟩, ⟨s!!"R", s!!"I", s!!"K"⟩,
    ⟨some (s!!"/a/x.hy"), none, [(s!!"$title", s!!"T"), (s!!"$request", s!!"R"),
          (s!!"$csrf_input", s!!"I"), (s!!"$csrf_token", s!!"K")]⟩, ?_, rfl, rfl, ?_⟩ <;> decide +kernel

-- separate dictionaries
example : (djRender exPassed id ⟨[], some (s!!"/b/y.hy")⟩ (some [(s!!"title", s!!"T")]) none).1 =
    .ok ⟨some (s!!"/b/y.hy"), none, [(s!!"$title", s!!"T")]⟩ := by decide +kernel

-- the second folder has the template
example : getTemplate (fun f => if f = s!!"/b/x.hy" then some (s!!"p | x") else none)
    [s!!"/a/x.hy", s!!"/b/x.hy"] = .ok ⟨s!!"p | x", some (s!!"/b/x.hy")⟩ := rfl

end Verif
