import Verif.Lemmas.Clauses

/-! Definitions of hypertags; imports. -/

set_option linter.unusedSectionVars false

namespace Verif
open Py Spec

section
variable {M : Marks} {U : Uni} {P : Type} {names : Str → Option Char} {full : Str} {k : Nat}

local notation "Bd" => Builds M U P names full
local notation "Bq" => BuildsSeq M U P names full
local notation "Bs" => BuildsStar M U P names full
local notation "Bm" => Many M U P names full
local notation "Fl" => Fails (rule M U)
local notation "Fq" => FailsSeq (rule M U)

variable [hM : MarksApart M U]

/-! Formal attributes -/

/-- One formal attribute. -/
def defPeg : Peg NT := .seq [.ref .space, .ref .attr_def]

/-- What may follow formal attributes. -/
structure DefEnd (M : Marks) (U : Uni) (b : Bool) (rest : Str) : Prop where
  nameEnd : NameEnd rest
  strict : b = true → StrictEnd U rest
  noEq : ∃ w s, rest = w ++ s ∧ Blanks w ∧ NoBlank s ∧ s.head? ≠ some '='
  stop : Fails (rule M U) defPeg rest

def defB (a : AttrDef) : Built P := .attr ⟨some a.name, a.default, false⟩

theorem blanks_nameEnd {w s : Str} (hw : Blanks w) (hne : w ≠ []) : NameEnd (w ++ s) := by
  cases w with
  | nil => exact absurd rfl hne
  | cons c w =>
    intro d hd
    cases hd
    rcases hw c (by simp) with rfl | rfl <;> rfl

theorem blanks_strict {w s : Str} (hw : Blanks w) (hne : w ≠ []) : StrictEnd U (w ++ s) := by
  cases w with
  | nil => exact absurd rfl hne
  | cons c w =>
    intro d hd
    cases hd
    rcases hw c (by simp) with rfl | rfl <;> rfl

theorem no_value {rest : Str} (h : ∃ w s, rest = w ++ s ∧ Blanks w ∧ NoBlank s ∧ s.head? ≠ some '=') :
    Fl (.seq [.ref .ws, .lit (s!!"="), .ref .ws, .ref .value_of_attr]) rest := by
  obtain ⟨w, s, rfl, hw, hs, hq⟩ := h
  refine .seq2 (.ws hw hs) ?_
  cases s with
  | nil => exact .lit rfl
  | cons c s => exact .lit1 (by simpa using hq)

theorem formals_start {t rest : Str} {as : List AttrDef} {b : Bool} (h : Formals M names t as) (hr : DefEnd M U b rest) :
    NameEnd (t ++ rest) ∧ (∃ w s, t ++ rest = w ++ s ∧ Blanks w ∧ NoBlank s ∧ s.head? ≠ some '=') ∧
    (as ≠ [] ∨ b = true → StrictEnd U (t ++ rest)) := by
  have key : ∀ (w n u : Str), Blanks w → w ≠ [] → Name n → NameEnd (w ++ (n ++ u)) ∧
      (∃ w' s, w ++ (n ++ u) = w' ++ s ∧ Blanks w' ∧ NoBlank s ∧ s.head? ≠ some '=') ∧ StrictEnd U (w ++ (n ++ u)) := by
    intro w n u hw hne hn
    refine ⟨blanks_nameEnd hw hne, ⟨w, n ++ u, rfl, hw, ?_, ?_⟩, blanks_strict hw hne⟩ <;> obtain ⟨c, v, rfl, hc⟩ := (name_xmlName hn).start
    · exact .cons (nameStart_cases hc).1
    · simpa using (nameStart_cases hc).2
  cases h with
  | nil => exact ⟨hr.nameEnd, hr.noEq, fun h => hr.strict (by simpa using h)⟩
  | @name w n t as hw hne hn h =>
    have := key w n (t ++ rest) hw hne hn
    simp only [List.append_assoc]
    exact ⟨this.1, this.2.1, fun _ => this.2.2⟩
  | @default w n w1 w2 v t e as hw hne hn hw1 hw2 hv h =>
    have := key w n (w1 ++ ('=' :: (w2 ++ (v ++ t))) ++ rest) hw hne hn
    simp only [List.append_assoc, List.cons_append] at this ⊢
    exact ⟨this.1, this.2.1, fun _ => this.2.2⟩

theorem name_noBlank {n u : Str} (hn : Name n) : NoBlank (n ++ u) := by
  obtain ⟨c, v, rfl, hc⟩ := (name_xmlName hn).start
  exact .cons (nameStart_cases hc).1

theorem formals_reads {t : Str} {as : List AttrDef} (h : Formals M names t as) : ∀ {k : Nat} {rest : Str} {b : Bool}, DefEnd M U b rest →
    ((∃ a ∈ as, a.default ≠ none) → b = true) → Bs k defPeg t rest (as.map defB) := by
  induction h with
  | nil => intro k rest b hr _; exact .nil hr.stop
  | @name w n t as hw hne hn h ih =>
    intro k rest b hr hb
    have hs := formals_start h hr
    have h0 : Bd (k + w.length) (.ref .attr_def) n (t ++ rest) [defB ⟨n, none, none⟩] :=
      .plain (bs := [.str .name_id n]) (.ofSeq (.step (r := t ++ rest) (.name hn hs.1) (.step (x := []) (y := []) (r := t ++ rest) (.opt_none (no_value hs.2.1)) (.nil _)))) rfl
    have h1 : Bd k defPeg (w ++ n) (t ++ rest) [defB ⟨n, none, none⟩] :=
      .ofSeq (.step (r := n ++ (t ++ rest)) (.space hw hne (name_noBlank hn)) (.step h0 (.nil _)))
    refine .cons (x := w ++ n) (y := t) (bs := [defB ⟨n, none, none⟩]) h1 (by simp [hne]) (ih hr (fun ⟨a, ha, hd⟩ => hb ⟨a, by simp [ha], hd⟩)) (by simp)
  | @default w n w1 w2 v t e as hw hne hn hw1 hw2 hv h ih =>
    intro k rest b hr hb
    have hs := formals_start h hr
    have hbt : b = true := hb ⟨⟨n, some e, none⟩, by simp, by simp⟩
    obtain ⟨e', rfl⟩ := value_root hv
    have hv' : ∀ k, Bd k (.seq [.ref .ws, .lit (s!!"="), .ref .ws, .ref .value_of_attr]) (w1 ++ ('=' :: (w2 ++ v))) (t ++ rest) [bx (.root none e')] := fun k =>
      .ofSeq (.step (r := '=' :: (w2 ++ (v ++ (t ++ rest)))) (.ws hw1 (.cons rfl))
        (.step (x := ['=']) (r := w2 ++ (v ++ (t ++ rest))) (.lit _ _) (.step (r := v ++ (t ++ rest)) (.ws hw2 (value_noBlank hv))
        (.step (y := []) (r := t ++ rest) (reads_value hv (hs.2.2 (.inr hbt))) (.nil _)))))
    have h0 : Bd (k + w.length) (.ref .attr_def) (n ++ (w1 ++ ('=' :: (w2 ++ v)))) (t ++ rest) [defB ⟨n, some (.root none e'), none⟩] := by
      refine .plain (bs := [.str .name_id n, bx (.root none e')]) (.ofSeq (.step (r := w1 ++ ('=' :: (w2 ++ v)) ++ (t ++ rest)) (.name hn ?_)
          (.step (.opt_some (hv' _)) (.nil _)))) ?_
      · have := nameEnd_blanks (s := w2 ++ v ++ (t ++ rest)) (c := '=') hw1 (by rfl)
        simpa using this
      · rw [attachQuals_id (.cons (by simp) (.cons (by simp [bx]) .nil))]; rfl
    have h1 : Bd k defPeg (w ++ (n ++ (w1 ++ ('=' :: (w2 ++ v))))) (t ++ rest) [defB ⟨n, some (.root none e'), none⟩] :=
      .ofSeq (.step (r := n ++ (w1 ++ ('=' :: (w2 ++ v))) ++ (t ++ rest)) (.space hw hne (by simpa using name_noBlank hn)) (.step h0 (.nil _)))
    refine .cons (x := w ++ (n ++ (w1 ++ ('=' :: (w2 ++ v))))) (y := t) (bs := [defB ⟨n, some (.root none e'), none⟩]) h1 (by simp [hne]) (ih hr (fun ⟨a, ha, hd⟩ => hb ⟨a, by simp [ha], hd⟩)) (by simp)

/-! Definitions -/

theorem no_formal {w s : Str} (hw : Blanks w) (hs : NoBlank s) (h : Fl (.ref .name_id) s) : Fl defPeg (w ++ s) := by
  cases w with
  | nil => exact .seq1 (.space hs)
  | cons c w => exact .seq2 (.space hw (by simp) hs) (.ref (.seq1 h))

theorem BodyStart.defEnd {t s : Str} {b : Bool} (h : BodyStart M t s) (h1 : t.head? = some '!' → b = false) : DefEnd M U b s := by
  have key : ∀ (w : Str) (c : Char) (u : Str), Blanks w → isBlank c = false → nameChar c = false → nameStart c = false → c ≠ '=' →
      (w = [] → b = true → endChar U c = true) → DefEnd M U b (w ++ c :: u) := by
    intro w c u hw hb hn hn' hq he
    refine ⟨nameEnd_blanks hw hn, fun hbt => ?_, ⟨w, c :: u, rfl, hw, .cons hb, by simpa using hq⟩, no_formal hw (.cons hb) (.name_start hn')⟩
    by_cases hne : w = []
    · subst hne; intro d hd; cases hd; exact he rfl hbt
    · exact blanks_strict hw hne
  cases h with
  | @text w u v c hw hc ht =>
    simp only [List.elem_eq_mem, List.mem_cons, List.not_mem_nil, or_false, decide_eq_true_eq] at hc
    rcases hc with rfl | rfl | rfl | rfl
    · refine key w '!' u hw rfl rfl rfl (by decide) (fun hw hb => ?_)
      subst hw
      rw [h1 (by rw [ht]; rfl)] at hb
      cases hb
    · exact key w _ u hw rfl rfl rfl (by decide) (fun _ _ => rfl)
    · exact key w _ u hw rfl rfl rfl (by decide) (fun _ _ => rfl)
    · exact key w _ u hw rfl rfl rfl (by decide) (fun _ _ => rfl)
  | eol h =>
    refine ⟨h.nameEnd U, fun _ c hc => (h c hc).ends, ⟨[], s, rfl, .nil, h.noBlank U, ?_⟩, no_formal (w := []) .nil (h.noBlank U) ?_⟩
    · intro hc; exact (h _ hc).ne U (a := '=') (by decide) rfl
    · exact Avoids.name (fun c hc => ((h c hc).notName U).1)
  | hash hw hne => exact key _ _ _ hw rfl rfl rfl (by decide) (fun h => absurd h hne)
  | dashes hw hne => exact key _ _ _ hw rfl rfl rfl (by decide) (fun h => absurd h hne)
  | colon hw => exact key _ _ _ hw rfl rfl rfl (by decide) (fun _ _ => rfl)

def bodyB (a : AttrDef) : Built P := .attr ⟨some a.name, a.default, true⟩

theorem builds_bodyFormal {w w' n rest : Str} (hw : Blanks w) (hne : w ≠ []) (hw' : Blanks w') (hn : Name n) (hr : NameEnd rest) :
    Bd k (.opt (.seq [.ref .space, .ref .attr_body])) (w ++ ('@' :: (w' ++ n))) rest [bodyB ⟨n, none, none⟩] := by
  have h0 : Bd (k + w.length) (.ref .attr_body) ('@' :: (w' ++ n)) rest [bodyB ⟨n, none, none⟩] :=
    .plain (bs := [.str .name_id n]) (.ofSeq (.step (x := ['@']) (r := w' ++ (n ++ rest)) (.ignored (n := .mark_embed) rfl (.lit _ _)) (.step (r := n ++ rest) (.ws hw' (name_noBlank hn)) (.step (y := []) (r := rest) (.name hn hr) (.nil _))))) rfl
  exact .opt_some (.ofSeq (.step (r := '@' :: (w' ++ n) ++ rest) (.space hw hne (.cons rfl)) (.step h0 (.nil _))))

theorem no_bodyFormal {w s : Str} (hw : Blanks w) (hs : NoBlank s) (h : w ≠ [] → s.head? ≠ some '@') :
    Fl (.seq [.ref .space, .ref .attr_body]) (w ++ s) := by
  by_cases hne : w = []
  · subst hne; exact .seq1 (.space hs)
  · refine .seq2 (.space hw hne hs) (.ref (.seq1 (.ref ?_)))
    cases s with
    | nil => exact .lit rfl
    | cons c s => exact .lit1 (by simpa using h hne)

theorem BodyStart.no_bodyFormal {t s : Str} (h : BodyStart M t s) (h1 : ∀ w s, Blanks w → w ≠ [] → t ≠ w ++ ('@' :: s)) :
    Fl (.seq [.ref .space, .ref .attr_body]) s := by
  cases h with
  | @text w u v c hw hc ht =>
    refine Verif.no_bodyFormal hw (.cons ?_) (fun hne => ?_)
    · simp only [List.elem_eq_mem, List.mem_cons, List.not_mem_nil, or_false, decide_eq_true_eq] at hc
      rcases hc with rfl | rfl | rfl | rfl <;> rfl
    · rintro hc
      simp only [List.head?_cons, Option.some.injEq] at hc
      subst hc
      exact h1 w v hw hne ht
  | eol h => exact Verif.no_bodyFormal (w := []) .nil (h.noBlank U) (by simp)
  | hash hw hne => exact Verif.no_bodyFormal hw (.cons rfl) (by simp)
  | dashes hw hne => exact Verif.no_bodyFormal hw (.cons rfl) (by simp)
  | colon hw => exact Verif.no_bodyFormal hw (.cons rfl) (by simp)

theorem splitDef_formals (as : List AttrDef) (b : Stmt P) (h : ∀ a ∈ as, a.slot = none) :
    splitDef (as.map defB ++ [.stmt b]) = .ok (as.map (fun a => (a, false)), b) := by
  induction as with
  | nil => rfl
  | cons a as ih =>
    obtain ⟨n, d, s⟩ := a
    have : s = none := h ⟨n, d, s⟩ (by simp)
    subst this
    simp only [List.map_cons, List.cons_append, defB, splitDef, ih (fun a ha => h a (by simp [ha]))]
    rfl

theorem formals_slot {t : Str} {as : List AttrDef} (h : Formals M names t as) : ∀ a ∈ as, a.slot = none := by
  induction h with
  | nil => simp
  | name _ _ _ _ ih => intro a ha; rcases List.mem_cons.1 ha with rfl | ha; rfl; exact ih a ha
  | default _ _ _ _ _ _ _ ih => intro a ha; rcases List.mem_cons.1 ha with rfl | ha; rfl; exact ih a ha

theorem setupDef_formals {n : Str} {body : Option AttrDef} {as : List AttrDef} {b : Stmt P} (h : ∀ a ∈ as, a.slot = none)
    (hb : ∀ a, body = some a → a.slot = none) (hn : ((body.toList ++ as).map AttrDef.name).Nodup) :
    setupDef k n (body.toList.map bodyB ++ (as.map defB ++ [.stmt b])) = .ok (.defn k n none body as b) := by
  cases body with
  | none =>
    simp only [Option.toList_none, List.map_nil, List.nil_append, setupDef, splitDef_formals as b h]
    have : as.map (fun a => (a, false)) = [] ∨ ∃ a l, as.map (fun a => (a, false)) = (a, false) :: l := by
      cases as with
      | nil => exact .inl rfl
      | cons a as => exact .inr ⟨a, _, rfl⟩
    have hm : (as.map (fun a => (a, false))).map Prod.fst = as := by simp [Function.comp_def]
    have hm' : (as.map (fun a => (a, false))).map (fun a => a.1.name) = as.map AttrDef.name := by simp [Function.comp_def]
    simp only [bind, Except.bind, hm']
    rw [if_neg (by simpa using hn)]
    rcases this with h | ⟨a, l, h⟩
    · rw [h] at hm ⊢; simp only [pure, Except.pure, hm]
    · rw [h] at hm ⊢; simp only [pure, Except.pure, hm]
  | some a =>
    obtain ⟨m, d, s⟩ := a
    have : s = none := hb _ rfl
    subst this
    simp only [Option.toList_some, List.map_cons, List.map_nil, List.cons_append, List.nil_append, setupDef, bodyB, splitDef, splitDef_formals as b h]
    have hm : (as.map (fun a => (a, false))).map Prod.fst = as := by simp [Function.comp_def]
    have hm' : (as.map (fun a => (a, false))).map (fun a => a.1.name) = as.map AttrDef.name := by simp [Function.comp_def]
    simp only [bind, Except.bind, pure, Except.pure, List.map_cons, hm, hm']
    rw [if_neg (by simpa using hn)]

theorem def_noQual (body : Option AttrDef) (as : List AttrDef) (b : Stmt P) :
    NoQual (body.toList.map bodyB ++ (as.map defB ++ [.stmt b])) := by
  intro q hq
  simp only [List.mem_append, List.mem_map, bodyB, defB, List.mem_singleton] at hq
  rcases hq with ⟨a, _, h⟩ | ⟨a, _, h⟩ | h <;> cases h

theorem name_at {n u : Str} (hn : Name n) : (n ++ u).head? ≠ some '@' := by
  obtain ⟨c, v, rfl, hc⟩ := (name_xmlName hn).start
  simp only [List.cons_append, List.head?_cons, ne_eq, Option.some.injEq]
  rintro rfl
  cases hc

theorem reads_define {c : Nat} {w n t t' t'' : Str} {body : Option AttrDef} {as : List AttrDef} {is : List Item} {b : Stmt P}
    (hw : Blanks w) (hn : Name n) (ht : BodyFormal t body) (hf : Formals M names t' as)
    (hd : ((body.toList ++ as).map AttrDef.name).Nodup) (hx : t''.head? = some '!' → ∀ a ∈ as, a.default = none)
    (hy : t = [] → t' = [] → ∀ w s, Blanks w → w ≠ [] → t'' ≠ w ++ ('@' :: s))
    (hb : StructBody M names (k + 1 + w.length + n.length + t.length + t'.length)
        (c + 1 + w.length + n.length + t.length + t'.length) t'' is b)
    (hr : ReadsBody M U P names full .generic_struct (k + 1 + w.length + n.length + t.length + t'.length)
        (c + 1 + w.length + n.length + t.length + t'.length) t'' is b) :
    ReadsBody M U P names full .block_def k c ('%' :: (w ++ (n ++ (t ++ (t' ++ t''))))) is (.defn k n none body as b) := by
  intro hnl hok rest hs hcol
  simp only [List.mem_cons, List.mem_append, not_or] at hnl
  obtain ⟨_, n1, n2, n3, n4, n5⟩ := hnl
  have hcol' : Col full k (['%'] ++ (w ++ (n ++ (t ++ (t' ++ (t'' ++ (itemsFlat M is ++ rest))))))) c := by simpa using hcol
  have hB := hr n5 hok rest hs (((((hcol'.move (by decide)).move n1).move n2).move n3).move n4)
  have hst := structBody_start U hb hs.eol
  have hde : DefEnd M U (as.any (fun a => a.default.isSome)) (t'' ++ (itemsFlat M is ++ rest)) := by
    refine hst.defEnd (fun h => ?_)
    rw [List.any_eq_false]
    intro a ha
    simp [hx h a ha]
  have hfs := formals_start hf hde
  have hfr : Bs (k + 1 + w.length + n.length + t.length) defPeg t' (t'' ++ (itemsFlat M is ++ rest)) (as.map defB) := by
    refine formals_reads hf hde ?_
    rintro ⟨a, ha, hne⟩
    rw [List.any_eq_true]
    exact ⟨a, ha, Option.isSome_iff_ne_none.2 hne⟩
  have hbf : Bd (k + 1 + w.length + n.length) (.opt (.seq [.ref .space, .ref .attr_body])) t (t' ++ (t'' ++ (itemsFlat M is ++ rest))) (body.toList.map bodyB) := by
    cases ht with
    | none =>
      refine .opt_none ?_
      cases hf with
      | nil => exact hst.no_bodyFormal (hy rfl rfl)
      | @name w n t as hw hne hn =>
        have := Verif.no_bodyFormal (M := M) (U := U) hw (name_noBlank hn (u := t ++ (t'' ++ (itemsFlat M is ++ rest)))) (fun _ => name_at hn)
        simpa using this
      | @default w n w1 w2 v t e as hw hne hn =>
        have := Verif.no_bodyFormal (M := M) (U := U) hw (name_noBlank hn (u := (w1 ++ ('=' :: (w2 ++ (v ++ t)))) ++ (t'' ++ (itemsFlat M is ++ rest)))) (fun _ => name_at hn)
        simpa using this
    | some hw hne hw' hn => exact builds_bodyFormal hw hne hw' hn hfs.1
  have hne : NameEnd (t ++ (t' ++ (t'' ++ (itemsFlat M is ++ rest)))) := by
    cases ht with
    | none => exact hfs.1
    | some hw hne hw' hn => rw [List.append_assoc]; exact blanks_nameEnd hw hne
  have hat : Bd (k + 1 + w.length + n.length) (.ref .attrs_def) (t ++ t') (t'' ++ (itemsFlat M is ++ rest)) (body.toList.map bodyB ++ as.map defB) :=
    .reduced rfl (.ofSeq (.step hbf (.step (y := []) (r := t'' ++ (itemsFlat M is ++ rest)) (.star hfr) (.nil _))))
  have heq : '%' :: (w ++ (n ++ (t ++ (t' ++ t'')))) ++ itemsFlat M is = ['%'] ++ (w ++ (n ++ (t ++ t' ++ (t'' ++ itemsFlat M is)))) := by simp
  rw [heq]
  refine .plain (bs := .str .name_id n :: (body.toList.map bodyB ++ (as.map defB ++ [.stmt b]))) (.ofSeq (.step (x := ['%']) (r := w ++ (n ++ (t ++ (t' ++ (t'' ++ (itemsFlat M is ++ rest))))))
    (.ignored (n := .mark_def) rfl (.lit _ _)) (.step (r := n ++ (t ++ (t' ++ (t'' ++ (itemsFlat M is ++ rest))))) (.ws hw (name_noBlank hn)) (.step (r := t ++ (t' ++ (t'' ++ (itemsFlat M is ++ rest)))) (.name hn hne)
    (.step (r := t'' ++ (itemsFlat M is ++ rest)) hat.at (.step (y := []) (r := rest) hB.at (.nil _))))))) ?_
  rw [attachQuals_id (.cons (by simp) (def_noQual _ _ _))]
  simp only [setup]
  rw [setupDef_formals (formals_slot hf) (fun a ha => by cases ht with | none => cases ha | some => cases ha; rfl) hd]
  rfl

/-! Imports -/

/-- What may follow an item of an import. -/
structure ItemEnd (rest : Str) : Prop where
  nameEnd : NameEnd rest
  next : ∃ w s, rest = w ++ s ∧ Blanks w ∧ NoBlank s ∧ s.head? ≠ some 'a'

/-- What may follow a list of items. -/
structure ListEnd (rest : Str) : Prop where
  nameEnd : NameEnd rest
  next : ∃ w s, rest = w ++ s ∧ Blanks w ∧ NoBlank s ∧ s.head? ≠ some 'a' ∧ s.head? ≠ some ','

theorem ListEnd.item {rest : Str} (h : ListEnd rest) : ItemEnd rest := by
  obtain ⟨h1, w, s, h2, h3, h4, h5, _⟩ := h
  exact ⟨h1, w, s, h2, h3, h4, h5⟩

theorem comma_item {w s : Str} (hw : Blanks w) : ItemEnd (w ++ ',' :: s) :=
  ⟨nameEnd_blanks hw rfl, w, _, rfl, hw, .cons rfl, by simp⟩

include hM in
variable (U) in
theorem remark_list {r rest : Str} (h : Remark M r) (hr : Eol M rest) : ListEnd (r ++ rest) := by
  obtain ⟨w, s, hs, hw, hb, hc⟩ := remark_split U h hr
  rw [hs]
  refine ⟨?_, w, s, rfl, hw, hb, ?_, ?_⟩
  · cases w with
    | nil =>
      intro c hc'
      rcases hc c hc' with h | rfl | rfl
      · exact (h.notName U).2
      · rfl
      · rfl
    | cons a w => exact blanks_nameEnd hw (by simp)
  · intro h'
    have := remark_avoids U (l := ['a']) hc (by decide) rfl rfl 'a' h'
    cases this
  · intro h'
    have := remark_avoids U (l := [',']) hc (by decide) rfl rfl ',' h'
    cases this

theorem builds_symbol {c : Char} {n rest : Str} (hc : c = '%' ∨ c = '$') (hn : Name n) (hr : NameEnd rest) :
    Bd k (.ref .symbol) (c :: n) rest [.str .symbol (c :: n)] := by
  have h0 : Bd k (.alt [.ref .mark_def, .ref .mark_eval]) [c] (n ++ rest) [] := by
    rcases hc with rfl | rfl
    · exact .alt (.here (.ignored rfl (.lit ['%'] _)))
    · exact .alt (.there (.first 200 rfl) (.here (.ignored rfl (.lit ['$'] _))))
  exact .plain (bs := [.str .name_id n]) (.ofSeq (.step h0 (.step (y := []) (r := rest) (.name hn hr) (.nil _)))) rfl

theorem builds_rename {w1 w2 r rest : Str} (hw1 : Blanks w1) (hn1 : w1 ≠ []) (hw2 : Blanks w2) (hn2 : w2 ≠ []) (hr : Name r) (he : NameEnd rest) :
    Bd k (.opt (.ref .rename)) (w1 ++ (s!!"as" ++ (w2 ++ r))) rest [.str .name_id r] :=
  .opt_some (.reduced rfl (.ofSeq (.step (r := s!!"as" ++ (w2 ++ (r ++ rest))) (.space hw1 hn1 (.cons rfl)) (.step (x := s!!"as") (r := w2 ++ (r ++ rest)) (.lit _ _)
    (.step (r := r ++ rest) (.space hw2 hn2 (name_noBlank hr)) (.step (y := []) (r := rest) (.name hr he) (.nil _)))))))

theorem no_rename {rest : Str} (h : ItemEnd rest) : Fl (.ref .rename) rest := by
  obtain ⟨_, w, s, rfl, hw, hs, ha⟩ := h
  by_cases hne : w = []
  · subst hne; exact .ref (.seq1 (.space hs))
  · refine .ref (.seq2 (.space hw hne hs) ?_)
    cases s with
    | nil => exact .lit rfl
    | cons c s => exact .lit1 (by simpa using ha)

def symB (s : Str) (r : Option Str) : List (Built P) := .str .symbol s :: r.toList.map (.str .name_id)

theorem symbol_reads {t s rest : Str} {r : Option Str} (h : Symbol t s r) (hr : ItemEnd rest) :
    Bd k (.seq [.ref .symbol, .opt (.ref .rename)]) t rest (symB s r) := by
  cases h with
  | plain hc hn => exact .ofSeq (.step (y := []) (r := rest) (builds_symbol hc hn hr.nameEnd) (.step (x := []) (y := []) (r := rest) (.opt_none (no_rename hr)) (.nil _))) (hb := by simp [symB])
  | @rename c n w1 w2 r hc hn hw1 hn1 hw2 hn2 hr' =>
    refine .ofSeq (.step (builds_symbol (rest := w1 ++ (s!!"as" ++ (w2 ++ r)) ++ rest) hc hn ?_) (.step (builds_rename hw1 hn1 hw2 hn2 hr' hr.nameEnd) (.nil _))) (hb := by simp [symB])
    simpa using blanks_nameEnd hw1 hn1

theorem symbol_noBlank {t s u : Str} {r : Option Str} (h : Symbol t s r) : NoBlank (t ++ u) := by
  cases h with
  | plain hc hn => rcases hc with rfl | rfl <;> exact .cons rfl
  | rename hc => rcases hc with rfl | rfl <;> exact .cons rfl

theorem imported_reads {t rest : Str} {x : ImportItem P} (h : Imported t x) (hr : ItemEnd rest) :
    Bd k (.ref .item_import) t rest [.item x] := by
  cases h with
  | wild => exact .reduced rfl (.alt (.here (.plain (bs := []) (.lit ['*'] _) rfl)))
  | @name _ s r h =>
    refine .reduced rfl (.alt (.there ?_ (.here (.plain (bs := symB s r) (symbol_reads h hr) (by cases r <;> rfl)))))
    cases h with
    | plain hc hn => rcases hc with rfl | rfl <;> exact .first 200 rfl
    | rename hc => rcases hc with rfl | rfl <;> exact .first 200 rfl

theorem declared_reads {t rest : Str} {x : ImportItem P} (h : Declared t x) (hr : ItemEnd rest) :
    Bd k (.ref .cntx_import) t rest [.item x] := by
  cases h with
  | @name s r h => exact .plain (bs := symB s r) (symbol_reads h hr) (by cases r <;> rfl)

theorem imported_noBlank {t u : Str} {x : ImportItem P} (h : Imported t x) : NoBlank (t ++ u) := by
  cases h with
  | wild => exact .cons rfl
  | name h => exact symbol_noBlank h

theorem declared_noBlank {t u : Str} {x : ImportItem P} (h : Declared t x) : NoBlank (t ++ u) := by
  cases h with
  | name h => exact symbol_noBlank h

theorem no_more_items {rest : Str} {p : Peg NT} (h : ListEnd rest) : Fl (.seq [.ref .comma, p]) rest := by
  obtain ⟨_, w, s, rfl, hw, hs, _, hc⟩ := h
  exact .seq1 (.ref (.seq2 (.ws hw hs) (not_comma hc)))

theorem listed_reads {I : Str → ImportItem P → Prop} {n : NT}
    (hI : ∀ {k : Nat} {t rest : Str} {x : ImportItem P}, I t x → ItemEnd rest → Bd k (.ref n) t rest [.item x])
    (hB : ∀ {t u : Str} {x : ImportItem P}, I t x → NoBlank (t ++ u)) {t : Str} {xs : List (ImportItem P)} (h : Listed I t xs) :
    ∀ {rest : Str}, ListEnd rest → (∀ u, NoBlank (t ++ u)) ∧ ∃ a a' x ys, t = a ++ a' ∧ xs = x :: ys ∧ ItemEnd (a' ++ rest) ∧ I a x ∧
      ∀ k, Bs k (.seq [.ref .comma, .ref n]) a' rest (ys.map .item) := by
  induction h with
  | @one t x h =>
    intro rest hr
    exact ⟨fun u => hB h, t, [], x, [], by simp, rfl, hr.item, h, fun k => .nil (no_more_items hr)⟩
  | @cons t w1 w2 t' x xs h hw1 hw2 h' ih =>
    intro rest hr
    obtain ⟨hnb, a, a', y, ys, rfl, rfl, he, hy, hs⟩ := ih hr
    refine ⟨fun u => by simpa using hB h, t, w1 ++ (',' :: (w2 ++ (a ++ a'))), x, y :: ys, by simp, rfl, ?_, h, fun k => ?_⟩
    · have := comma_item (s := w2 ++ (a ++ a') ++ rest) hw1
      simpa using this
    · have h1 : ∀ k, Bd k (.seq [.ref .comma, .ref n]) (w1 ++ (',' :: (w2 ++ a))) (a' ++ rest) [.item y] := fun k =>
        .ofSeq (.step (x := w1 ++ ',' :: w2) (r := a ++ (a' ++ rest)) (builds_comma hw1 hw2 (hB hy)) (.step (y := []) (r := a' ++ rest) (hI hy he) (.nil _)))
      exact .cons (x := w1 ++ (',' :: (w2 ++ a))) (y := a') (bs := [.item y]) (h1 k) (by simp) (hs _) (by simp)

theorem asItemsOf_map (xs : List (ImportItem P)) : asItemsOf (xs.map Built.item) = .ok xs := by
  induction xs with
  | nil => rfl
  | cons x xs ih => simp only [List.map_cons, asItemsOf, ih]; rfl

theorem items_noQual (xs : List (ImportItem P)) : NoQual (xs.map Built.item) := by
  intro q hq
  simp only [List.mem_map] at hq
  obtain ⟨_, _, h⟩ := hq
  cases h

theorem builds_path {p rest : Str} (hp : PathText p) (hr : ∀ c, rest.head? = some c → isSpace c = true) :
    Bd k (.ref .path_import) p rest [.str .path_import p] := by
  refine .plain (bs := []) (.rx (RE.match?_many1 hp.1 ?_ (inClass_false ?_))) rfl
  · intro c hc
    obtain ⟨h1, h2, h3⟩ := hp.2 c hc
    simp [h1, h2, h3]
  · intro c hc
    simp [hr c hc]

theorem path_noBlank {p u : Str} (hp : PathText p) : NoBlank (p ++ u) := by
  obtain ⟨h1, h2⟩ := hp
  cases p with
  | nil => exact absurd rfl h1
  | cons c p =>
    refine .cons ?_
    have := (h2 c (by simp)).1
    rw [← Bool.not_eq_true]
    intro hb
    simp only [isBlank, Bool.or_eq_true, beq_iff_eq] at hb
    rcases hb with rfl | rfl <;> cases this

theorem reads_imports {w1 p w2 w3 t r rest : Str} {xs : List (ImportItem P)} (hw1 : Blanks w1) (hn1 : w1 ≠ []) (hp : PathText p)
    (hw2 : Blanks w2) (hn2 : w2 ≠ []) (hw3 : Blanks w3) (hn3 : w3 ≠ []) (h : Listed Imported t xs) (hr : Remark M r) (he : Eol M rest) :
    Bd k (.ref .block_import) (s!!"from" ++ (w1 ++ (p ++ (w2 ++ (s!!"import" ++ (w3 ++ (t ++ r))))))) rest [.stmt (.imports false (some p) xs)] := by
  obtain ⟨hnb, a, a', x, ys, rfl, rfl, hie, hx, hs⟩ := listed_reads (M := M) (U := U) (names := names) (full := full) (n := .item_import) imported_reads imported_noBlank h (remark_list U hr he)
  have hsp : ∀ u c, (w2 ++ u).head? = some c → isSpace c = true := by
    intro u c hc
    cases w2 with
    | nil => exact absurd rfl hn2
    | cons d w => cases hc; rcases hw2 c (by simp) with rfl | rfl <;> rfl
  refine .plain (bs := .str .path_import p :: (x :: ys).map .item) (.ofSeq (.step (x := s!!"from") (r := w1 ++ (p ++ (w2 ++ (s!!"import" ++ (w3 ++ (a ++ (a' ++ (r ++ rest)))))))) (.lit _ _)
    (.step (r := p ++ (w2 ++ (s!!"import" ++ (w3 ++ (a ++ (a' ++ (r ++ rest))))))) (.space hw1 hn1 (path_noBlank hp)) (.step (r := w2 ++ (s!!"import" ++ (w3 ++ (a ++ (a' ++ (r ++ rest)))))) (builds_path hp (hsp _))
    (.step (r := s!!"import" ++ (w3 ++ (a ++ (a' ++ (r ++ rest))))) (.space hw2 hn2 (.cons rfl)) (.step (x := s!!"import") (r := w3 ++ (a ++ (a' ++ (r ++ rest)))) (.lit _ _)
    (.step (r := a ++ (a' ++ (r ++ rest))) (.space hw3 hn3 (imported_noBlank hx)) (.step (r := a' ++ (r ++ rest)) (imported_reads hx (by simpa using hie)) (.step (r := r ++ rest) (.star (hs _))
    (.step (y := []) (r := rest) (remark_builds hr he) (.nil _))))))))))) ?_
  rw [attachQuals_id (.cons (by simp) (items_noQual _))]
  simp only [setup, asItemsOf_map]; rfl

theorem reads_context {w t r rest : Str} {xs : List (ImportItem P)} (hw : Blanks w) (hn : w ≠ []) (h : Listed Declared t xs) (hr : Remark M r) (he : Eol M rest) :
    Bd k (.ref .block_context) (s!!"context" ++ (w ++ (t ++ r))) rest [.stmt (.imports true none xs)] := by
  obtain ⟨hnb, a, a', x, ys, rfl, rfl, hie, hx, hs⟩ := listed_reads (M := M) (U := U) (names := names) (full := full) (n := .cntx_import) declared_reads declared_noBlank h (remark_list U hr he)
  refine .plain (bs := (x :: ys).map .item) (.ofSeq (.step (x := s!!"context") (r := w ++ (a ++ (a' ++ (r ++ rest)))) (.lit _ _)
    (.step (r := a ++ (a' ++ (r ++ rest))) (.space hw hn (declared_noBlank hx)) (.step (r := a' ++ (r ++ rest)) (declared_reads hx (by simpa using hie)) (.step (r := r ++ rest) (.star (hs _))
    (.step (y := []) (r := rest) (remark_builds hr he) (.nil _))))))) ?_
  rw [attachQuals_id (items_noQual _)]
  simp only [setup, asItemsOf_map]; rfl

end
end Verif
