import Verif.Lemmas.RecodeRules
import Verif.Lemmas.JoiningLoad

/-! Other marks: statements. -/

namespace Verif
open Py Spec

section
variable {M M' : Marks} {U : Uni}

/-! ### The encoded text -/

theorem enc_recode (hd : Marks.Distinct M) (hnl : isMark M '\n' = false) {cur : Str} {m k : Nat} {ls : List Str}
    (hls : ∀ l ∈ ls, ∀ c ∈ l, isMark M c = false) :
    enc M' cur m k ls = (enc M cur m k ls).map (List.map (recode M M')) := by
  have hid : ∀ s : Str, (∀ c ∈ s, isMark M c = false) → s.map (recode M M') = s := by
    intro s h
    conv => rhs; rw [← List.map_id s]
    exact List.map_congr_left (fun c hc => recode_of_not (h c hc))
  have hr : ∀ m, (List.replicate m '\n').map (recode M M') = List.replicate m '\n' :=
    fun m => hid _ (fun c hc => by rw [List.eq_of_mem_replicate hc]; exact hnl)
  induction ls generalizing cur m k with
  | nil =>
    have := change_recode (M := M) (M' := M') hd cur []
    cases cur with
    | nil => simp [enc, dedentSymbols, Except.map, hr]
    | cons c cur =>
      simp only [change, List.prefix_nil, reduceCtorEq, if_false, List.length_nil, List.drop_zero] at this
      simp only [enc, Except.map, List.map_append, hr, this]
  | cons l ls ih =>
    simp only [enc]
    split
    · exact ih (fun x hx => hls x (List.mem_cons_of_mem _ hx))
    · split
      · rw [ih (fun x hx => hls x (List.mem_cons_of_mem _ hx))]
        cases enc M (leading (rstrip l)) 0 (k + 1) ls with
        | error e => rfl
        | ok r =>
          simp only [Except.map, List.map_append, List.map_cons, hr, recode_of_not hnl,
            ← change_recode (M := M) (M' := M') hd,
            hid (lstrip (rstrip l)) (fun c hc => hls l List.mem_cons_self c (mem_rstrip (mem_lstrip hc)))]
      · rfl

theorem enc_code (hnl : isMark M' '\n' = false) {cur : Str} {m k : Nat} {ls : List Str}
    (hls : ∀ l ∈ ls, ∀ c ∈ l, isMark M' c = false) {out : Str} (h : enc M cur m k ls = .ok out) :
    ∀ c ∈ out, CodeChar M M' c := by
  have hch : ∀ a b, ∀ c ∈ change M a b, CodeChar M M' c := by
    intro a b c hc
    refine .inl ?_
    unfold change at hc
    split at hc
    · simp only [indentSymbols, List.mem_map] at hc
      obtain ⟨d, -, rfl⟩ := hc
      split <;> simp [isMark]
    · exact dedent_marks M _ c hc
  have hrep : ∀ m, ∀ c ∈ List.replicate m '\n', CodeChar M M' c :=
    fun m c hc => .inr (by rw [List.eq_of_mem_replicate hc]; exact hnl)
  induction ls generalizing cur m k out with
  | nil =>
    simp only [enc, Except.ok.injEq] at h
    rw [← h]
    intro c hc
    rcases List.mem_append.1 hc with hc | hc
    · exact .inl (dedent_marks M _ c hc)
    · exact hrep m c hc
  | cons l ls ih =>
    simp only [enc] at h
    split at h
    · exact ih (fun x hx => hls x (List.mem_cons_of_mem _ hx)) h
    · split at h
      · cases he : enc M (leading (rstrip l)) 0 (k + 1) ls with
        | error e => rw [he] at h; cases h
        | ok r =>
          rw [he] at h
          simp only [Except.ok.injEq] at h
          rw [← h]
          intro c hc
          simp only [List.mem_append, List.mem_cons] at hc
          rcases hc with (((hc | hc | hc) | hc)) | hc
          · exact hch _ _ c hc
          · rw [hc]; exact .inr hnl
          · exact hrep m c hc
          · exact .inr (hls l List.mem_cons_self c (mem_rstrip (mem_lstrip hc)))
          · exact ih (fun x hx => hls x (List.mem_cons_of_mem _ hx)) he c hc
      · cases h

/-! ### Trees -/

/-- The rewritten tree of the recoded text. -/
def RTree.recode (M M' : Marks) : RTree → RTree
  | .node n pos w cs => .node n pos (w.map (Verif.recode M M')) (cs.map (RTree.recode M M'))
  | .str pos w => .str pos (w.map (Verif.recode M M'))

theorem compactNode_recode (n : NT) (pos : Nat) (w : Str) (cs : List RTree) :
    compactNode n pos (w.map (recode M M')) (cs.map (RTree.recode M M')) = (compactNode n pos w cs).recode M M' := by
  unfold compactNode
  split
  · match cs with
    | [] => simp [RTree.recode]
    | [c] => rfl
    | c :: d :: cs => simp [RTree.recode]
  · simp [RTree.recode]

theorem PTree.recode_text {N : Type} (t : PTree N) : (t.recode M M').text = t.text.map (Verif.recode M M') := by
  cases t; simp only [PTree.recode, PTree.text]

mutual
theorem rewrite_recode (M M' : Marks) : ∀ (pos : Nat) (t : PTree NT),
    rewrite pos (t.recode M M') = (rewrite pos t).map (RTree.recode M M')
  | pos, .node none _ cs => by
    simp only [PTree.recode, rewrite]
    exact rewrites_recode M M' pos cs
  | pos, .node (some n) w cs => by
    simp only [PTree.recode]
    rw [rewrite_some, rewrite_some, rewrites_recode M M' pos cs]
    split
    · rfl
    · split
      · cases cs with
        | nil =>
          cases w with
          | nil => simp
          | cons c w => simp [RTree.recode]
        | cons c cs => simp
      · simp [compactNode_recode]
theorem rewrites_recode (M M' : Marks) : ∀ (pos : Nat) (ts : List (PTree NT)),
    rewrites pos (ts.map (PTree.recode M M')) = (rewrites pos ts).map (RTree.recode M M')
  | _, [] => rfl
  | pos, t :: ts => by
    simp only [List.map_cons, rewrites, List.map_append]
    rw [rewrite_recode M M' pos t, rewrites_recode M M' _ ts, PTree.recode_text, List.length_map]
end

/-- Nodes whose text matters. -/
def usesText : NT → Bool
  | .tag_use | .var_use | .qualifier | .op_multiplic | .op_additive | .op_power | .op_shift | .op_comp | .op_inplace
  | .string_raw | .number | .boolean | .attr_short_lit | .path_import | .symbol | .name_id | .name_xml | .text | .margin
  | .dedent | .append | .text_quot1 | .text_quot2 | .margin_out | .escape | .line_verbat | .var_def => true
  | _ => false

/-- The texts that matter have no marks. -/
inductive RClean (M : Marks) : RTree → Prop
  | node {n pos w cs} : (usesText n = true → ∀ c ∈ w, isMark M c = false) → (∀ t ∈ cs, RClean M t) → RClean M (.node n pos w cs)
  | str {pos w} : RClean M (.str pos w)

/-- The same of a syntax tree. -/
inductive PClean (M : Marks) : PTree NT → Prop
  | node {n w cs} : (∀ m, n = some m → usesText m = true → ∀ c ∈ w, isMark M c = false) → (∀ t ∈ cs, PClean M t) →
    PClean M (.node n w cs)

mutual
theorem PClean.rewrite : ∀ {t : PTree NT} (_ : PClean M t) (pos : Nat), ∀ r ∈ Verif.rewrite pos t, RClean M r
  | .node none _ cs, .node _ h, pos => by
    simp only [Verif.rewrite]
    exact PClean.rewrites cs h pos
  | .node (some n) w cs, .node hw h, pos => by
    have ih := PClean.rewrites cs h pos
    rw [rewrite_some]
    split
    · simp
    · split
      · split
        · intro r hr
          cases List.mem_singleton.1 hr
          exact .str
        · exact ih
      · intro r hr
        cases List.mem_singleton.1 hr
        unfold compactNode
        split
        · split
          · next c hc => exact ih c (by rw [hc]; simp)
          · exact .node (hw n rfl) ih
        · exact .node (hw n rfl) ih
theorem PClean.rewrites : ∀ (cs : List (PTree NT)) (_ : ∀ t ∈ cs, PClean M t) (pos : Nat), ∀ r ∈ Verif.rewrites pos cs, RClean M r
  | [], _, _ => by simp [Verif.rewrites]
  | c :: cs, h, pos => by
    intro r hr
    simp only [Verif.rewrites, List.mem_append] at hr
    rcases hr with hr | hr
    · exact PClean.rewrite (h c List.mem_cons_self) pos r hr
    · exact PClean.rewrites cs (fun t ht => h t (List.mem_cons_of_mem _ ht)) _ r hr
end

section
variable {P : Type}

theorem setup_text {names : Str → Option Char} {full full' w w' : Str} {n : NT} {pos : Nat} {cs : List (Built P)}
    (hc : columnAt full' pos = columnAt full pos) (ht : usesText n = true → w' = w)
    (hh : w'.head? = some '.' ↔ w.head? = some '.') :
    setup names full' n pos w' cs = setup names full n pos w cs := by
  cases n
  case attr_short => simp only [setup, hh]
  all_goals first
    | (cases ht rfl; rfl)
    | rfl
    | (simp only [setup, hc])

theorem columnAt_recode (hnl : isMark M '\n' = false) (hnl' : isMark M' '\n' = false) {full : Str} (h : ∀ c ∈ full, CodeChar M M' c)
    (pos : Nat) : columnAt (full.map (recode M M')) pos = columnAt full pos := by
  unfold columnAt
  have : ∀ s : Str, (∀ c ∈ s, CodeChar M M' c) →
      ((s.map (recode M M')).takeWhile (· != '\n')).length = (s.takeWhile (· != '\n')).length := by
    intro s hs
    induction s with
    | nil => rfl
    | cons c s ih =>
      have hc : (recode M M' c != '\n') = (c != '\n') := by
        cases hm : isMark M c with
        | false => rw [recode_of_not hm]
        | true =>
          have h1 : c ≠ '\n' := by rintro rfl; rw [hnl] at hm; cases hm
          have h2 : recode M M' c ≠ '\n' := by
            intro e
            have := recode_mark (M' := M') hm
            rw [e, hnl'] at this
            cases this
          rw [bne_iff_ne.2 h1, bne_iff_ne.2 h2]
      simp only [List.map_cons, List.takeWhile_cons, hc]
      split
      · simp [ih (fun d hd => hs d (List.mem_cons_of_mem _ hd))]
      · rfl
  rw [← List.map_take, ← List.map_reverse, this]
  intro c hc
  exact h c (List.mem_of_mem_take (List.mem_reverse.1 hc))

mutual
theorem build_recode {names : Str → Option Char} {full : Str} (hcol : ∀ pos, columnAt (full.map (recode M M')) pos = columnAt full pos)
    (hdot : isMark M '.' = false) (hdot' : isMark M' '.' = false) : ∀ (t : RTree), RClean M t →
    build (P := P) names (full.map (recode M M')) (t.recode M M') = build names full t
  | .str _ _, _ => by simp only [RTree.recode, build]
  | .node n pos w cs, .node hw hcs => by
    simp only [RTree.recode, build, buildAll_recode hcol hdot hdot' cs hcs]
    cases buildAll names full cs with
    | error e => rfl
    | ok bs =>
      refine setup_text (hcol pos) (fun hu => ?_) ?_
      · conv => rhs; rw [← List.map_id w]
        exact List.map_congr_left (fun c hc => recode_of_not (hw hu c hc))
      · cases w with
        | nil => simp
        | cons c w =>
          simp only [List.map_cons, List.head?_cons, Option.some.injEq]
          constructor
          · intro e
            cases hm : isMark M c with
            | false => rwa [recode_of_not hm] at e
            | true =>
              have := recode_mark (M' := M') hm
              rw [e, hdot'] at this
              cases this
          · rintro rfl
            exact recode_of_not hdot
theorem buildAll_recode {names : Str → Option Char} {full : Str} (hcol : ∀ pos, columnAt (full.map (recode M M')) pos = columnAt full pos)
    (hdot : isMark M '.' = false) (hdot' : isMark M' '.' = false) : ∀ (ts : List RTree), (∀ t ∈ ts, RClean M t) →
    buildAll (P := P) names (full.map (recode M M')) (ts.map (RTree.recode M M')) = buildAll names full ts
  | [], _ => by simp only [List.map_nil, buildAll]
  | t :: ts, h => by
    simp only [List.map_cons, buildAll, build_recode hcol hdot hdot' t (h t List.mem_cons_self),
      buildAll_recode hcol hdot hdot' ts (fun x hx => h x (List.mem_cons_of_mem _ hx))]
end

end
end
end Verif
