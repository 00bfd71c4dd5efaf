import Verif.Spec.TagCall
import Verif.Props.Markup

/-! C123: tags called as functions. -/

namespace Verif
open Py Spec

section
variable (ext : Nat → Except RenderErr Str → List AttrVal → List (Str × AttrVal) → Except RenderErr Str)

theorem renderNodes_text (s : Str) : renderNodes ext [textNode s] = .ok s := by
  simp [renderNodes, renderNode, textNode, renderBody, applyIndent, bind, Except.bind, pure, Except.pure]

theorem renderNode_plain (t : TagObj) (attrs : List AttrVal) (kw : List (Str × AttrVal)) (body : List Node) :
    renderNode ext (.mk .node (some t) (some attrs) (some kw) body false none) = expandTag ext t (renderNodes ext body) attrs kw := by
  simp only [renderNode, renderBody, Option.getD_some]
  cases expandTag ext t (renderNodes ext body) attrs kw <;> simp [applyIndent, bind, Except.bind, pure, Except.pure]

theorem tagCall_text {t : TagObj} {s : Str} {attrs : List AttrVal} {kw : List (Str × AttrVal)}
    (h : ∀ p ∈ kw, p.1 ≠ s!!"self" ∧ p.1 ≠ s!!"body_string") :
    tagCall ext t (.val (.obj s) :: attrs.map CallArg.val) (kw.map (fun p => (p.1, .val p.2))) = expandTag ext t (.ok s) attrs kw := by
  have h1 : (kw.map (fun p => (p.1, CallArg.val p.2))).any (fun p => p.1 == s!!"self") = false := by
    rw [List.any_eq_false]
    intro p hp
    obtain ⟨q, hq, rfl⟩ := List.mem_map.1 hp
    simpa using (h q hq).1
  have h2 : (kw.map (fun p => (p.1, CallArg.val p.2))).find? (fun p => p.1 == s!!"body_string") = none := by
    rw [List.find?_eq_none]
    intro p hp
    obtain ⟨q, hq, rfl⟩ := List.mem_map.1 hp
    simpa using (h q hq).2
  have h3 : ((kw.map (fun p => (p.1, CallArg.val p.2))).filter (fun p => p.1 != s!!"body_string")).map (fun p => (p.1, p.2.attr)) = kw := by
    rw [List.filter_eq_self.2]
    · rw [List.map_map]
      exact List.map_id'' (fun _ => rfl) kw
    · intro p hp
      obtain ⟨q, hq, rfl⟩ := List.mem_map.1 hp
      simpa using (h q hq).2
  have h4 : (attrs.map CallArg.val).map CallArg.attr = attrs := by
    rw [List.map_map]
    exact List.map_id'' (fun _ => rfl) attrs
  unfold tagCall
  simp only [h1, h2, h3, h4, callBody, AttrVal.str, renderNodes_text, Bool.false_eq_true, if_false]

mutual
/-- C123. Nested calls of tags return the text that is rendered from nodes with the same tags, attributes and texts. -/
theorem C123_rendered : ∀ (c : Call) (s : Str), c.Ok → Call.value ext c = .ok s → renderNode ext c.node = .ok s
  | .text t, s, _, h => by
    simp only [Call.value, Except.ok.injEq] at h
    subst h
    simp [Call.node, renderNode, renderBody, applyIndent, bind, Except.bind, pure, Except.pure]
  | .tag t attrs kw body, s, ho, h => by
    unfold Call.Ok at ho
    unfold Call.value at h
    cases hb : Call.values ext body with
    | error e => rw [hb] at h; cases h
    | ok b =>
      rw [hb] at h
      rw [Call.node, renderNode_plain, C123_all_rendered body b ho.2 hb]
      exact (tagCall_text ext ho.1).symm.trans h
/-- The same for several. -/
theorem C123_all_rendered : ∀ (cs : List Call) (s : Str), Call.AllOk cs → Call.values ext cs = .ok s → renderNodes ext (Call.nodes cs) = .ok s
  | [], s, _, h => by simpa [Call.values, Call.nodes, renderNodes] using h
  | c :: cs, s, ho, h => by
    unfold Call.AllOk at ho
    unfold Call.values at h
    cases h1 : Call.value ext c with
    | error e => rw [h1] at h; cases h
    | ok a =>
      rw [h1] at h
      cases h2 : Call.values ext cs with
      | error e => rw [h2] at h; cases h
      | ok b =>
        rw [h2] at h
        simp only [Except.ok.injEq] at h
        simp only [Call.nodes, renderNodes, C123_rendered c a ho.1 h1, C123_all_rendered cs b ho.2 h2, bind, Except.bind, pure, Except.pure, h]
end

theorem expandTag_error {t : TagObj} (ht : ∀ n i, t ≠ .ext n i) (e : RenderErr) (attrs : List AttrVal) (kw : List (Str × AttrVal)) :
    ∃ e', expandTag ext t (.error e) attrs kw = .error e' := by
  cases t with
  | ext n i => exact absurd rfl (ht n i)
  | markup n v m =>
    simp only [expandTag, markupExpand, markupExpand']
    split
    · exact ⟨_, rfl⟩
    · exact ⟨_, rfl⟩
  | custom =>
    simp only [expandTag, customExpand, markupExpand']
    split <;> exact ⟨_, rfl⟩
  | comment =>
    simp only [expandTag, commentExpand]
    split <;> exact ⟨_, rfl⟩
  | null => exact ⟨_, rfl⟩
  | native n => exact ⟨_, rfl⟩

mutual
/-- C123. If such a call of standard tags raises an exception, the nodes can't be rendered, either. -/
theorem C123_raises : ∀ (c : Call) (e : RenderErr), c.Ok → c.Std → Call.value ext c = .error e → ∃ e', renderNode ext c.node = .error e'
  | .text t, e, _, _, h => by simp [Call.value] at h
  | .tag t attrs kw body, e, ho, hs, h => by
    unfold Call.Ok at ho
    unfold Call.Std at hs
    unfold Call.value at h
    rw [Call.node, renderNode_plain]
    cases hb : Call.values ext body with
    | error e0 =>
      obtain ⟨e1, h1⟩ := C123_all_raise body e0 ho.2 hs.2 hb
      rw [h1]
      exact expandTag_error ext hs.1 e1 attrs kw
    | ok b =>
      rw [hb] at h
      rw [C123_all_rendered ext body b ho.2 hb]
      exact ⟨e, (tagCall_text ext ho.1).symm.trans h⟩
theorem C123_all_raise : ∀ (cs : List Call) (e : RenderErr), Call.AllOk cs → Call.AllStd cs → Call.values ext cs = .error e →
    ∃ e', renderNodes ext (Call.nodes cs) = .error e'
  | [], e, _, _, h => by simp [Call.values] at h
  | c :: cs, e, ho, hs, h => by
    unfold Call.AllOk at ho
    unfold Call.AllStd at hs
    unfold Call.values at h
    simp only [Call.nodes, renderNodes]
    cases h1 : Call.value ext c with
    | error e0 =>
      obtain ⟨e1, h1⟩ := C123_raises c e0 ho.1 hs.1 h1
      exact ⟨e1, by rw [h1]; rfl⟩
    | ok a =>
      rw [h1] at h
      rw [C123_rendered ext c a ho.1 h1]
      cases h2 : Call.values ext cs with
      | error e0 =>
        obtain ⟨e1, h2⟩ := C123_all_raise cs e0 ho.2 hs.2 h2
        exact ⟨e1, by rw [h2]; rfl⟩
      | ok b =>
        rw [h2] at h
        cases h
end

/-- C123. A call without arguments, with `None` and with an empty text are the same. -/
theorem C123_empty (t : TagObj) (kw : List (Str × CallArg)) (h : ∀ p ∈ kw, p.1 ≠ s!!"body_string") :
    tagCall ext t [] kw = tagCall ext t [.none] kw ∧ tagCall ext t [] kw = tagCall ext t [.val (.obj [])] kw := by
  have h2 : kw.find? (fun p => p.1 == s!!"body_string") = none := by
    rw [List.find?_eq_none]
    intro p hp
    simpa using h p hp
  unfold tagCall
  simp only [h2, callBody, AttrVal.str, renderNodes_text]
  exact ⟨rfl, rfl⟩

/-- C123. The body may be given by the keyword `body_string` instead, at any place between the others, but not in both ways. -/
theorem C123_keyword (t : TagObj) (a : CallArg) (kw1 kw2 : List (Str × CallArg)) (h : ∀ p ∈ kw1 ++ kw2, p.1 ≠ s!!"body_string") :
    tagCall ext t [] (kw1 ++ (s!!"body_string", a) :: kw2) = tagCall ext t [a] (kw1 ++ kw2) ∧
    ∀ b args, tagCall ext t (b :: args) (kw1 ++ (s!!"body_string", a) :: kw2) = .error .typeError := by
  have f1 : kw1.find? (fun p => p.1 == s!!"body_string") = none := by
    rw [List.find?_eq_none]
    intro p hp
    simpa using h p (by simp [hp])
  have f2 : (kw1 ++ kw2).find? (fun p => p.1 == s!!"body_string") = none := by
    rw [List.find?_eq_none]
    intro p hp
    simpa using h p hp
  have f3 : (kw1 ++ (s!!"body_string", a) :: kw2).find? (fun p => p.1 == s!!"body_string") = some (s!!"body_string", a) := by
    rw [List.find?_append, f1]
    rfl
  have f4 : (kw1 ++ (s!!"body_string", a) :: kw2).filter (fun p => p.1 != s!!"body_string") = (kw1 ++ kw2).filter (fun p => p.1 != s!!"body_string") := by
    rw [List.filter_append, List.filter_append, List.filter_cons]
    rfl
  have f5 : (kw1 ++ (s!!"body_string", a) :: kw2).any (fun p => p.1 == s!!"self") = (kw1 ++ kw2).any (fun p => p.1 == s!!"self") := by
    rw [List.any_append, List.any_append, List.any_cons]
    rfl
  unfold tagCall
  simp only [f2, f3, f4, f5, List.map_nil]
  refine ⟨trivial, fun _ _ => ?_⟩
  split <;> rfl

/-- C123. An attribute `self` can't be given in a call, though it is allowed in a script. -/
theorem C123_self (t : TagObj) (args : List CallArg) (kw : List (Str × CallArg)) (h : s!!"self" ∈ kw.map Prod.fst) :
    tagCall ext t args kw = .error .typeError := by
  have : kw.any (fun p => p.1 == s!!"self") = true := by
    obtain ⟨p, hp, e⟩ := List.mem_map.1 h
    exact List.any_eq_true.2 ⟨p, hp, by simp [e]⟩
  unfold tagCall
  simp only [this, if_true]

end

/-! Examples. -/

namespace TagCallEx

def noExt : Nat → Except RenderErr Str → List AttrVal → List (Str × AttrVal) → Except RenderErr Str := fun _ _ _ _ => .ok []
def ul : TagObj := .markup (s!!"ul") false .html
def li : TagObj := .markup (s!!"li") false .html
def br : TagObj := .markup (s!!"br") true .html

-- ul(li('a & b') + br() + li('', hidden = True), id = 'x'): the text is not escaped
def call : Call := .tag ul [] [(s!!"id", .obj (s!!"x"))] [.tag li [] [] [.text (s!!"a & b")], .tag br [] [] [], .tag li [] [(s!!"hidden", .bool true)] []]

def callText : Str := s!!"<ul id=\"x\"><li>a & b</li><br /><li hidden></li></ul>"

theorem call_ok : call.Ok := by simp [call, Call.Ok, Call.AllOk]

example : renderNode noExt call.node = .ok callText :=
  C123_rendered noExt call callText call_ok (by decide +kernel)

-- a void tag with a body, and an attribute by position
example : ∃ e, renderNode noExt (Call.tag br [] [] [.text (s!!"a")]).node = .error e :=
  C123_raises noExt _ .voidTag (by simp [Call.Ok, Call.AllOk]) (by simp [Call.Std, Call.AllStd, br]) (by decide +kernel)
example : tagCall noExt li [.val (.obj (s!!"a")), .val (.obj (s!!"b"))] [] = .error .typeError := by decide +kernel

-- None is no text as the body, and a text as an attribute
example : tagCall noExt li [.none] [(s!!"id", .none)] = .ok (s!!"<li id=\"None\"></li>") ∧
    tagCall noExt li [.val (.bool true)] [] = .ok (s!!"<li>True</li>") := by decide +kernel

-- an attribute `self` is rendered from a node
example : renderNode noExt (.mk .node (some li) none (some [(s!!"self", .obj (s!!"x"))]) [] false none) = .ok (s!!"<li self=\"x\"></li>") ∧
    tagCall noExt li [] [(s!!"self", .val (.obj (s!!"x")))] = .error .typeError := by decide +kernel

/-- The errors may differ: the exception of the call comes from the inner tag, that of rendering from the outer one. -/
example : Call.value noExt (.tag li [.bool true] [] [.tag br [] [] [.text (s!!"a")]]) = .error .voidTag ∧
    renderNode noExt (Call.tag li [.bool true] [] [.tag br [] [] [.text (s!!"a")]]).node = .error .typeError := by decide +kernel

end TagCallEx
end Verif
