import Verif.Lemmas.Orderly

/-! Scripts without `while` loops, and with hypertags as tags only, are orderly when analysed. -/

set_option linter.unusedSectionVars false

namespace Verif
open Py Spec

section
variable {P I : Type}

/-- The hypertags in slots from `lo` to `hi` are those in `D`. -/
structure Covers (G : DefId → Slot → Prop) (lo hi : Slot) (D : List (DefId × Slot × DefInfo P)) : Prop where
  only : ∀ id k, G id k → lo ≤ k → k < hi → ∃ d, (id, k, d) ∈ D
  all : ∀ x ∈ D, G x.1 x.2.1

/-- Analysis from `c` to `c'` with the definitions `D` and the result `R`, where hypertags use those in slots before. -/
structure Sound (V : Val P → Prop) (D : List (DefId × Slot × DefInfo P)) (R : (DefId → Slot → Prop) → Slot → Prop) (c c' : Ctx) : Prop where
  next : c.next ≤ c'.next
  range : ∀ x ∈ D, c.next ≤ x.2.1 ∧ x.2.1 < c'.next
  ok : ∀ G, Covers G c.next c'.next D → c.Sorted G → c'.Sorted G ∧ (∀ x ∈ D, x.2.2.Orderly V G x.2.1) ∧ ∀ b, c'.next ≤ b → R G b

variable {V : Val P → Prop} {D D1 D2 : List (DefId × Slot × DefInfo P)} {R R1 R2 : (DefId → Slot → Prop) → Slot → Prop} {c c' c1 c2 : Ctx}

theorem Sound.here (h : ∀ G, c.Sorted G → ∀ b, c.next ≤ b → R G b) : Sound V [] R c c :=
  ⟨Nat.le_refl _, by simp, fun G _ hc => ⟨hc, by simp, h G hc⟩⟩

theorem Sound.seq (h1 : Sound V D1 R1 c c1) (h2 : Sound V D2 R2 c1 c2) : Sound V (D1 ++ D2) (fun G b => R1 G b ∧ R2 G b) c c2 := by
  refine ⟨Nat.le_trans h1.next h2.next, fun x hx => ?_, fun G hG hc => ?_⟩
  · rcases List.mem_append.1 hx with hx | hx
    · exact ⟨(h1.range x hx).1, Nat.lt_of_lt_of_le (h1.range x hx).2 h2.next⟩
    · exact ⟨Nat.le_trans h1.next (h2.range x hx).1, (h2.range x hx).2⟩
  · have g1 : Covers G c.next c1.next D1 := ⟨fun id k hg hl hh => by
      obtain ⟨d, hd⟩ := hG.only id k hg hl (Nat.lt_of_lt_of_le hh h2.next)
      rcases List.mem_append.1 hd with hd | hd
      · exact ⟨d, hd⟩
      · exact absurd hh (Nat.not_lt.2 (h2.range _ hd).1), fun x hx => hG.all x (List.mem_append_left _ hx)⟩
    have g2 : Covers G c1.next c2.next D2 := ⟨fun id k hg hl hh => by
      obtain ⟨d, hd⟩ := hG.only id k hg (Nat.le_trans h1.next hl) hh
      rcases List.mem_append.1 hd with hd | hd
      · exact absurd (h1.range _ hd).2 (Nat.not_lt.2 hl)
      · exact ⟨d, hd⟩, fun x hx => hG.all x (List.mem_append_right _ hx)⟩
    obtain ⟨s1, d1, r1⟩ := h1.ok G g1 hc
    obtain ⟨s2, d2, r2⟩ := h2.ok G g2 s1
    exact ⟨s2, fun x hx => (List.mem_append.1 hx).elim (d1 x) (d2 x), fun b hb => ⟨r1 b (Nat.le_trans h2.next hb), r2 b hb⟩⟩

theorem Sound.imp (h : Sound V D R1 c c') (hD : D = D2) (hR : ∀ G b, R1 G b → R2 G b) : Sound V D2 R2 c c' := by
  subst hD
  exact ⟨h.next, h.range, fun G hG hc => let ⟨a, b, d⟩ := h.ok G hG hc; ⟨a, b, fun k hk => hR G k (d k hk)⟩⟩

theorem Sound.into (h : Sound V D R c c1) (hn : c2.next = c1.next) (hb : ∀ x ∈ c2.binds, x ∈ c1.binds) : Sound V D R c c2 :=
  ⟨by rw [hn]; exact h.next, by rw [hn]; exact h.range, fun G hG hc => by
    rw [hn] at hG
    obtain ⟨a, b, d⟩ := h.ok G hG hc
    exact ⟨a.sub (Nat.le_of_eq hn.symm) hb, b, by rw [hn]; exact d⟩⟩

theorem Sound.since (h : Sound V D R c1 c') (hn : c.next = c1.next) (hb : c1.binds = c.binds) : Sound V D R c c' :=
  ⟨by rw [hn]; exact h.next, by rw [hn]; exact h.range, fun G hG hc =>
    h.ok G (by rw [← hn]; exact hG) (hc.sub (Nat.le_of_eq hn) (fun x hx => by rw [hb] at hx; exact hx))⟩

/-- A new slot, not of a definition. -/
theorem newSlot_sound {sym : Str} {r : SlotInfo × Ctx} (h : (newSlot c sym : Except (AErr I) _) = .ok r) :
    Sound V [] (fun _ _ => True) c r.2 ∧ r.1.id = c.next ∧ r.2.next = c.next + 1 ∧ r.2.binds = c.binds ++ [(sym, r.1)] := by
  unfold newSlot at h
  split at h
  · cases h
    refine ⟨⟨Nat.le_succ _, by simp, fun G hG hc => ⟨⟨fun x hx => ?_, fun x hx hs id hg => ?_⟩, by simp, fun _ _ => trivial⟩⟩, rfl, rfl, rfl⟩
    · rcases List.mem_append.1 hx with hx | hx
      · exact Nat.lt_succ_of_lt (hc.before x hx)
      · rw [List.mem_singleton.1 hx]; exact Nat.lt_succ_self _
    · rcases List.mem_append.1 hx with hx | hx
      · exact hc.vars x hx hs id hg
      · rw [List.mem_singleton.1 hx] at hg
        obtain ⟨d, hd⟩ := hG.only id _ hg (Nat.le_refl _) (Nat.lt_succ_self _)
        cases hd
  · cases h

theorem declare_sound {sym : Str} {r : SlotInfo × Ctx} (h : (declare c sym : Except (AErr I) _) = .ok r) :
    Sound V [] (fun _ _ => True) c r.2 := by
  unfold declare at h
  cases hn : (newSlot c sym : Except (AErr I) _) with
  | error e => rw [hn] at h; cases h
  | ok q =>
    rw [hn] at h
    obtain ⟨s, c1⟩ := q
    have h : (Except.ok (s, c1.push sym s) : Except (AErr I) _) = .ok r := h
    cases h
    obtain ⟨h1, _, _, h4⟩ := newSlot_sound (V := V) hn
    refine h1.into rfl (fun x hx => ?_)
    rcases List.mem_append.1 hx with hx | hx
    · exact hx
    · rw [List.mem_singleton.1 hx, h4]; simp

theorem writeSlot_sound {sym : Str} {r : SlotInfo × Ctx} (h : (writeSlot c sym : Except (AErr I) _) = .ok r) :
    Sound V [] (fun _ _ => True) c r.2 := by
  unfold writeSlot at h
  split at h
  · split at h
    · cases h; exact .here (fun _ _ _ _ => trivial)
    · exact declare_sound h
  · exact declare_sound h

mutual
theorem analyseTarget_sound : ∀ (t : Target) (c : Ctx), Post (fun r => Sound V [] (fun G _ => r.1.reads (NoTag G)) c r.2) (analyseTarget t c : Except (AErr I) _)
  | .var name read _ _, c => by
    simp only [analyseTarget]
    refine (Post.self _).bind (fun r hr => (Post.self _).bind (fun w hw => .pure ?_))
    have h1 := Sound.here (V := V) (c := c) (R := fun G _ => read = true → NoTag G r) (fun G hc b _ => by
      intro hread
      simp only [readSlot, hread, if_true] at hr
      exact resolve_var hc.noTag name _ r hr)
    refine (h1.seq (writeSlot_sound hw)).imp rfl (fun G b h => ?_)
    simp only [Target.reads]
    exact h.1
  | .many ts, c => by
    simp only [analyseTarget]
    exact (analyseTargets_sound ts c).bind (fun r h => .pure (h.imp rfl (fun G b h => by simp only [Target.reads]; exact h)))
theorem analyseTargets_sound : ∀ (ts : List Target) (c : Ctx),
    Post (fun r => Sound V [] (fun G _ => Target.readsAll (NoTag G) r.1) c r.2) (analyseTargets ts c : Except (AErr I) _)
  | [], c => by simp only [analyseTargets]; exact .pure (.here (fun _ _ _ _ => by simp only [Target.readsAll]))
  | t :: ts, c => by
    simp only [analyseTargets]
    refine (analyseTarget_sound t c).bind (fun r h => (analyseTargets_sound ts r.2).bind (fun r2 h2 => .pure
      ((h.seq h2).imp rfl (fun G b h => by simp only [Target.readsAll]; exact h))))
end

theorem analyseTag_sound (t : TagExp) (c : Ctx) (h : t.untagged) :
    Post (fun t' => ∀ G, c.Sorted G → ∀ b, c.next ≤ b → t'.orderly G b) (analyseTag c.binds t : Except (AErr I) _) := by
  cases t with
  | null => simp only [analyseTag]; exact .pure (fun _ _ _ _ => trivial)
  | tag name slot us ns =>
    simp only [analyseTag]
    refine (Post.self _).bind (fun u hu => (Post.self _).bind (fun n hn => (Post.self _).bind (fun s hs => .pure (fun G hc b hb => ?_))))
    refine ⟨analyseExprs_vars hc.noTag us h.1 u hu, analyseNamed_vars hc.noTag ns h.2 n hn, fun k hk => ?_⟩
    subst hk
    unfold resolve at hs
    split at hs
    · rename_i x hl
      cases hs
      exact Nat.lt_of_lt_of_le (hc.before _ (lookupBind_mem hl)) hb
    · cases hs

theorem analyseTags_sound (ts : List TagExp) (c : Ctx) (h : ∀ t ∈ ts, t.untagged) :
    Post (fun l => ∀ G, c.Sorted G → ∀ b, c.next ≤ b → ∀ t ∈ l, t.orderly G b) (analyseTags c.binds ts : Except (AErr I) _) := by
  induction ts with
  | nil => exact .pure (by simp)
  | cons t ts ih =>
    simp only [analyseTags]
    refine (analyseTag_sound t c (h t (by simp))).bind (fun a ha => (ih (fun u hu => h u (by simp [hu]))).bind (fun l hl => .pure (fun G hc b hb u hu => ?_)))
    rcases List.mem_cons.1 hu with rfl | hu
    · exact ha G hc b hb
    · exact hl G hc b hb u hu

theorem declareAttrs_sound (as : List AttrDef) : ∀ c : Ctx,
    Post (fun r => Sound V [] (fun _ _ => True) c r.2 ∧ r.1.map AttrDef.default = as.map AttrDef.default) (declareAttrs as c : Except (AErr I) _) := by
  induction as with
  | nil => intro c; simp only [declareAttrs]; exact .pure ⟨.here (fun _ _ _ _ => trivial), rfl⟩
  | cons a as ih =>
    intro c
    simp only [declareAttrs]
    exact (Post.self _).bind (fun r hr => (ih r.2).bind (fun r2 h2 => .pure
      ⟨((declare_sound hr).seq h2.1).imp rfl (fun _ _ _ => trivial), by simp [h2.2]⟩))

/-! ### Imports -/

section
variable {src : Source P I} (hV : ∀ h, ¬ V (.hyper h)) (hm : ∀ p d st, src.modules p = .ok (d, st) → ∀ a ∈ d, V a.2) (hx : ∀ a ∈ src.context, V a.2)
include hV hm hx

theorem importValue_plain {sym : Str} {st : StateId} {v : Val P} (h : V v) : V (importValue sym st v) := by
  cases v with
  | hyper q => exact absurd h (hV q)
  | _ => exact h

theorem valueSlots_sound (l : List (Str × Val P)) (h : ∀ a ∈ l, V a.2) : ∀ c : Ctx,
    Post (fun r => Sound V [] (fun _ _ => True) c r.2 ∧ ∀ a ∈ r.1, V a.2.2) (valueSlots l c : Except (AErr I) _) := by
  induction l with
  | nil => intro c; simp only [valueSlots]; exact .pure ⟨.here (fun _ _ _ _ => trivial), by simp⟩
  | cons a l ih =>
    intro c
    obtain ⟨sym, v⟩ := a
    simp only [valueSlots]
    refine (Post.self _).bind (fun r hr => (ih (fun b hb => h b (by simp [hb])) r.2).bind (fun r2 h2 => .pure
      ⟨((newSlot_sound hr).1.seq h2.1).imp rfl (fun _ _ _ => trivial), fun b hb => ?_⟩))
    rcases List.mem_cons.1 hb with rfl | hb
    · exact h (sym, v) (by simp)
    · exact h2.2 b hb

theorem publicSymbols_plain (st : StateId) (l : List (Str × Val P)) (h : ∀ a ∈ l, V a.2) :
    Post (fun r => ∀ a ∈ r, V a.2) (publicSymbols st l : Except (AErr I) _) := by
  induction l with
  | nil => exact .pure (by simp)
  | cons a l ih =>
    obtain ⟨sym, v⟩ := a
    simp only [publicSymbols]
    split
    · exact .error
    · refine (ih (fun b hb => h b (by simp [hb]))).bind (fun r hr => .pure ?_)
      split
      · intro b hb
        rcases List.mem_cons.1 hb with rfl | hb
        · exact importValue_plain hV hm hx (h (sym, v) (by simp))
        · exact hr b hb
      · exact hr

theorem loadModule_plain (path : Option Str) : Post (fun r => ∀ a ∈ r.1, V a.2) (loadModule src path) := by
  unfold loadModule
  cases hp : src.modules path with
  | error e => exact .error
  | ok m => exact .ok (hm path m.1 m.2 hp)

theorem analyseImport_sound (path : Option Str) (i : ImportItem P) (c : Ctx) :
    Post (fun r => Sound V [] (fun _ _ => r.1.brings V) c r.2) (analyseImport src path i c) := by
  cases i with
  | wild _ =>
    simp only [analyseImport]
    refine (loadModule_plain hV hm hx path).bind (fun m h1 => (publicSymbols_plain hV hm hx m.2 m.1 h1).bind (fun l h2 =>
      (valueSlots_sound hV hm hx l h2 c).bind (fun r h3 => .pure (h3.1.imp rfl (fun _ _ _ => ?_)))))
    intro k hk a ha
    cases hk
    obtain ⟨b, hb, rfl⟩ := List.mem_map.1 ha
    exact h3.2 b hb
  | name sym ren _ =>
    simp only [analyseImport]
    split
    · exact .error
    · refine (loadModule_plain hV hm hx path).bind (fun m h1 => ?_)
      split
      · exact .error
      · rename_i v hv
        refine (Post.self _).bind (fun r hr => .pure ((newSlot_sound hr).1.imp rfl (fun _ _ _ => ?_)))
        intro a ha
        cases ha
        exact importValue_plain hV hm hx (h1 _ (Dict.mem_of_get? hv))
  | cntx sym ren _ =>
    simp only [analyseImport]
    split
    · exact .error
    · rename_i v hv
      refine (Post.self _).bind (fun r hr => .pure ((newSlot_sound hr).1.imp rfl (fun _ _ _ => ?_)))
      intro a ha
      cases ha
      exact hx _ (Dict.mem_of_get? hv)

theorem analyseImports_sound (path : Option Str) (is : List (ImportItem P)) : ∀ c : Ctx,
    Post (fun r => Sound V [] (fun _ _ => ∀ i ∈ r.1, i.brings V) c r.2) (analyseImports src path is c) := by
  induction is with
  | nil => intro c; simp only [analyseImports]; exact .pure (.here (fun _ _ _ _ => by simp))
  | cons i is ih =>
    intro c
    simp only [analyseImports]
    refine (analyseImport_sound hV hm hx path i c).bind (fun r h => (ih r.2).bind (fun r2 h2 => .pure ((h.seq h2).imp rfl (fun _ _ h j hj => ?_))))
    rcases List.mem_cons.1 hj with rfl | hj
    · exact h.1
    · exact h.2 j hj

/-! ### Statements -/

variable {M : Marks} {U : Uni}

mutual
theorem analyse_sound : ∀ (s : Stmt P) (c : Ctx), s.Made M U → s.straight →
    Post (fun r => Sound V r.1.slotted (fun G b => r.1.orderly V G b) c r.2) (analyse src s c)
  | .static s, c, _, _ => by simp only [analyse]; exact .pure (.here (fun _ _ _ _ => by simp only [Stmt.orderly]))
  | .indent s, c, _, _ => by simp only [analyse]; exact .pure (.here (fun _ _ _ _ => by simp only [Stmt.orderly]))
  | .dedent s, c, _, _ => by simp only [analyse]; exact .pure (.here (fun _ _ _ _ => by simp only [Stmt.orderly]))
  | .comment, c, _, _ => by simp only [analyse]; exact .pure (.here (fun _ _ _ _ => by simp only [Stmt.orderly]))
  | .pass, c, _, _ => by simp only [analyse]; exact .pure (.here (fun _ _ _ _ => by simp only [Stmt.orderly]))
  | .line l, c, _, t => by
    simp only [analyse]
    simp only [Stmt.straight] at t
    refine (Post.self _).bind (fun l' hl => .pure (.here (fun G hc b _ => ?_)))
    simp only [Stmt.orderly]
    exact analyseLine_vars hc.noTag l t l' hl
  | .xblock m mo b, c, h, t => by
    simp only [Stmt.Made, Stmt.straight] at h t
    simp only [analyse]
    obtain ⟨e1, _, _, _, e5⟩ := leaveProlog_eq b c
    refine (analyse_sound b _ h.2.2 t).bind (fun r hr => .pure ((hr.since e5.symm e1).imp ?_ (fun G k h => ?_)))
    · simp only [Stmt.slotted]
    · simp only [Stmt.orderly]; exact h
  | .text lead items, c, _, t => by
    simp only [analyse]
    simp only [Stmt.straight] at t
    refine (Post.self _).bind (fun l' hl => .pure (.here (fun G hc b _ => ?_)))
    simp only [Stmt.orderly]
    exact analyseItems_vars hc.noTag items t l' hl
  | .embed e, c, _, t => by
    simp only [analyse]
    simp only [Stmt.straight] at t
    refine (Post.self _).bind (fun l' hl => .pure (.here (fun G hc b _ => ?_)))
    simp only [Stmt.orderly]
    exact analyseExpr_vars hc.noTag e t l' hl
  | .exprBlock e, c, _, t => by
    simp only [analyse]
    simp only [Stmt.straight] at t
    refine (Post.self _).bind (fun l' hl => .pure (.here (fun G hc b _ => ?_)))
    simp only [Stmt.orderly]
    exact analyseExpr_vars hc.noTag e t l' hl
  | .struct tags b, c, h, t => by
    simp only [Stmt.Made, Stmt.straight] at h t
    simp only [analyse]
    refine (analyseTags_sound tags c t.1).bind (fun ts hts => (analyse_sound b _ h.2.2 t.2).bind (fun r hr => .pure ?_))
    have h1 := Sound.here (V := V) (c := c) (R := fun G b => ∀ t ∈ ts, t.orderly G b) hts
    refine ((h1.seq (hr.since (c := c) rfl rfl)).into (c2 := c.leave r.2) rfl (fun x hx => List.mem_of_mem_take hx)).imp ?_ (fun G k h => ?_)
    · simp only [Stmt.slotted, List.nil_append]
    · simp only [Stmt.orderly]; exact h
  | .defn id name slot ba as b, c, h, t => by
    simp only [Stmt.Made, Stmt.straight] at h t
    simp only [analyse]
    split
    · exact .error
    refine (Post.self _).bind (fun ba1 hba => (Post.self _).bind (fun as1 has => (declareAttrs_sound (V := V) ba1 _).bind (fun r1 h1 =>
      (declareAttrs_sound (V := V) as1 _).bind (fun r2 h2 => (analyse_sound b _ h.2.2.2.2.2.2 t.2.2).bind (fun r3 h3 => (Post.self _).bind (fun r4 h4 => .pure ?_))))))
    obtain ⟨n1, n2, n3, n4⟩ := newSlot_sound (V := V) h4
    have n2 : r4.1.id = r3.2.next := n2
    have n3 : r4.2.next = r3.2.next + 1 := n3
    have h0 := Sound.here (V := V) (c := c) (R := fun G _ => ∀ a ∈ as1, Expr.readsOpt (NoTag G) a.default)
      (fun G hc b _ => analyseDefaults_vars hc.noTag as t.2.1 as1 has)
    have hs := ((h0.seq (h1.1.since (c := c) rfl rfl)).seq h2.1).seq h3
    refine ⟨by rw [n3]; exact Nat.le_succ_of_le hs.next, fun x hx => ?_, fun G hG hc => ?_⟩
    · simp only [Stmt.slotted, Option.map_some, Option.toList_some] at hx
      rcases List.mem_append.1 hx with hx | hx
      · rw [List.mem_singleton.1 hx]
        show c.next ≤ r4.1.id ∧ r4.1.id < r4.2.next
        rw [n2, n3]
        exact ⟨hs.next, Nat.lt_succ_self _⟩
      · have := hs.range x (by simpa using hx)
        rw [n3]
        exact ⟨this.1, Nat.lt_succ_of_lt this.2⟩
    · simp only [Stmt.slotted, Option.map_some, Option.toList_some] at hG ⊢
      have hG' : Covers G c.next r3.2.next (([] ++ [] ++ [] : List _) ++ r3.1.slotted) := ⟨fun i k hg hl hh => by
        obtain ⟨d, hd⟩ := hG.only i k hg hl (by rw [n3]; exact Nat.lt_succ_of_lt hh)
        rcases List.mem_append.1 hd with hd | hd
        · have hk : k = r4.1.id := by
            have := List.mem_singleton.1 hd
            injection this with _ h
            injection h
          rw [hk, n2] at hh
          exact absurd hh (Nat.lt_irrefl _)
        · exact ⟨d, by simpa using hd⟩, fun x hx => hG.all x (List.mem_append_right _ (by simpa using hx))⟩
      obtain ⟨g1, g2, g3⟩ := hs.ok G hG' hc
      refine ⟨⟨fun x hx => ?_, fun x hx hsym i hi => ?_⟩, fun x hx => ?_, fun k hk => ?_⟩
      · rw [n4] at hx
        rw [n3]
        rcases List.mem_append.1 hx with hx | hx
        · exact Nat.lt_succ_of_lt (g1.before x (List.mem_of_mem_take hx))
        · rw [List.mem_singleton.1 hx, n2]; exact Nat.lt_succ_self _
      · rw [n4] at hx
        rcases List.mem_append.1 hx with hx | hx
        · exact g1.vars x (List.mem_of_mem_take hx) hsym i hi
        · rw [List.mem_singleton.1 hx] at hsym
          cases hsym
      · rcases List.mem_append.1 hx with hx | hx
        · rw [List.mem_singleton.1 hx]
          refine ⟨fun a ha => ?_, ?_⟩
          · have hd : a.default ∈ as1.map AttrDef.default := h2.2 ▸ List.mem_map_of_mem ha
            obtain ⟨a', ha', he⟩ := List.mem_map.1 hd
            rw [← he]
            exact (g3 _ (Nat.le_refl _)).1.1.1 a' ha'
          · show r3.1.orderly V G r4.1.id
            rw [n2]
            exact (g3 _ (Nat.le_refl _)).2
        · exact g2 x (by simpa using hx)
      · simp only [Stmt.orderly]
        intro k' hk'
        cases hk'
        exact hG.all (id, r4.1.id, _) (List.mem_append_left _ (List.mem_singleton.2 rfl))
  | .imports true path items, c, h, t => by
    simp only [analyse]
    split
    · exact (analyseImports_sound hV hm hx path items c).bind (fun r hr => .pure (hr.imp rfl (fun G b h => by simp only [Stmt.orderly]; exact h)))
    · exact .error
  | .imports false path items, c, h, t => by
    simp only [analyse]
    split
    · exact .error
    · exact (analyseImports_sound hV hm hx path items c).bind (fun r hr => .pure (hr.imp rfl (fun G b h => by simp only [Stmt.orderly]; exact h)))
  | .tryBlock bs, c, h, t => by
    simp only [Stmt.Made, Stmt.straight] at h t
    simp only [analyse]
    refine (analyseBranches_sound bs _ h.2.2 t).bind (fun r hr => .pure (((hr.since (c := c) rfl rfl).into (c2 := { r.2 with control := c.control }) rfl (fun _ h => h)).imp ?_ (fun G k h => ?_)))
    · simp only [Stmt.slotted]
    · simp only [Stmt.orderly]; exact h
  | .ifBlock cs els, c, h, t => by
    simp only [Stmt.Made, Stmt.straight] at h t
    simp only [analyse]
    refine (analyseClauses_sound cs _ h.2.1 t.1).bind (fun r hr => (analyseElse_sound els _ h.2.2.2 t.2).bind (fun r2 hr2 => .pure
      ((((hr.since (c := c) rfl rfl).seq hr2).into (c2 := { r2.2 with control := c.control }) rfl (fun _ h => h)).imp ?_ (fun G k h => ?_))))
    · simp only [Stmt.slotted]
    · simp only [Stmt.orderly]; exact h
  | .elseClause o, c, h, t => by
    simp only [Stmt.Made, Stmt.straight] at h t
    simp only [analyse]
    refine (analyseOpt_sound o _ h.2 t).bind (fun r hr => .pure (hr.imp ?_ (fun G k h => ?_)))
    · simp only [Stmt.slotted]
    · simp only [Stmt.orderly]; exact h
  | .whileBlock _ _ _, c, _, t => by simp only [Stmt.straight] at t
  | .forBlock ta e rest, c, h, t => by
    simp only [Stmt.Made, Stmt.straight] at h t
    simp only [analyse]
    refine (Post.self _).bind (fun e' he => (analyseTarget_sound (V := V) ta _).bind (fun r hr => (analyseFirst_sound rest _ h.2.2.2.2 t.2).bind (fun r2 hr2 => .pure ?_)))
    have h0 := Sound.here (V := V) (c := c) (R := fun G _ => e'.reads (NoTag G)) (fun G hc b _ => analyseExpr_vars hc.noTag e t.1 e' he)
    refine (((h0.seq (hr.since (c := c) rfl rfl)).seq hr2).into (c2 := { r2.2 with control := c.control }) rfl (fun _ h => h)).imp ?_ (fun G k h => ?_)
    · simp only [Stmt.slotted, List.nil_append]
    · simp only [Stmt.orderly]; exact ⟨h.1.1, h.2⟩
  | .assign ta op e, c, _, t => by
    simp only [Stmt.straight] at t
    simp only [analyse]
    refine (Post.self _).bind (fun e' he => (analyseTarget_sound (V := V) ta _).bind (fun r hr => .pure ?_))
    have h0 := Sound.here (V := V) (c := c) (R := fun G _ => e'.reads (NoTag G)) (fun G hc b _ => analyseExpr_vars hc.noTag e t e' he)
    refine (h0.seq hr).imp ?_ (fun G k h => ?_)
    · simp only [Stmt.slotted, List.nil_append]
    · simp only [Stmt.orderly]; exact h
  | .body ss, c, h, t => by
    simp only [Stmt.Made, Stmt.straight] at h t
    simp only [analyse]
    refine (analyseAll_sound ss _ h.2 t).bind (fun r hr => .pure (hr.imp ?_ (fun G k h => ?_)))
    · simp only [Stmt.slotted]
    · simp only [Stmt.orderly]; exact h
theorem analyseAll_sound : ∀ (ss : List (Stmt P)) (c : Ctx), Stmt.MadeAll M U ss → Stmt.straightAll ss →
    Post (fun r => Sound V (Stmt.slottedAll r.1) (fun G b => Stmt.orderlyAll V G b r.1) c r.2) (analyseAll src ss c)
  | [], c, _, _ => by simp only [analyseAll]; exact .pure (.here (fun _ _ _ _ => by simp only [Stmt.orderlyAll]))
  | s :: ss, c, h, t => by
    simp only [Stmt.MadeAll, Stmt.straightAll] at h t
    simp only [analyseAll]
    refine (analyse_sound s c h.1 t.1).bind (fun r hr => (analyseAll_sound ss _ h.2 t.2).bind (fun r2 hr2 => .pure ((hr.seq hr2).imp ?_ (fun G k h => ?_))))
    · simp only [Stmt.slottedAll]
    · simp only [Stmt.orderlyAll]; exact h
theorem analyseBranches_sound : ∀ (ss : List (Stmt P)) (c : Ctx), Stmt.MadeAll M U ss → Stmt.straightAll ss →
    Post (fun r => Sound V (Stmt.slottedAll r.1) (fun G b => Stmt.orderlyAll V G b r.1) c r.2) (analyseBranches src ss c)
  | [], c, _, _ => by simp only [analyseBranches]; exact .pure (.here (fun _ _ _ _ => by simp only [Stmt.orderlyAll]))
  | s :: ss, c, h, t => by
    simp only [Stmt.MadeAll, Stmt.straightAll] at h t
    simp only [analyseBranches]
    refine (analyse_sound s c h.1 t.1).bind (fun r hr => (analyseBranches_sound ss _ h.2 t.2).bind (fun r2 hr2 => .pure
      (((hr.into (mergeBranch_next c r.2) (mergeBranch_mem c r.2)).seq hr2).imp ?_ (fun G k h => ?_))))
    · simp only [Stmt.slottedAll]
    · simp only [Stmt.orderlyAll]; exact h
theorem analyseClauses_sound : ∀ (cs : List (Expr × Option (Stmt P))) (c : Ctx), Stmt.MadeClauses M U cs → Stmt.straightClauses cs →
    Post (fun r => Sound V (Stmt.slottedClauses r.1) (fun G b => Stmt.orderlyClauses V G b r.1) c r.2) (analyseClauses src cs c)
  | [], c, _, _ => by simp only [analyseClauses]; exact .pure (.here (fun _ _ _ _ => by simp only [Stmt.orderlyClauses]))
  | cl :: cs, c, h, t => by
    simp only [Stmt.MadeClauses, Stmt.straightClauses] at h t
    simp only [analyseClauses]
    refine (analyseClause_sound cl c h.1 t.1).bind (fun r hr => (analyseClauses_sound cs _ h.2 t.2).bind (fun r2 hr2 => .pure
      (((hr.into (mergeBranch_next c r.2) (mergeBranch_mem c r.2)).seq hr2).imp ?_ (fun G k h => ?_))))
    · simp only [Stmt.slottedClauses]
    · simp only [Stmt.orderlyClauses]; exact h
theorem analyseClause_sound : ∀ (cl : Expr × Option (Stmt P)) (c : Ctx), Stmt.MadeClause M U cl → Stmt.straightClause cl →
    Post (fun r => Sound V (Stmt.slottedClause r.1) (fun G b => Stmt.orderlyClause V G b r.1) c r.2) (analyseClause src cl c)
  | (e, o), c, h, t => by
    simp only [Stmt.MadeClause, Stmt.straightClause] at h t
    simp only [analyseClause]
    refine (Post.self _).bind (fun e' he => (analyseOpt_sound o c h.2.2 t.2).bind (fun r hr => .pure ?_))
    have h0 := Sound.here (V := V) (c := c) (R := fun G _ => e'.reads (NoTag G)) (fun G hc b _ => analyseExpr_vars hc.noTag e t.1 e' he)
    refine (h0.seq hr).imp ?_ (fun G k h => ?_)
    · simp only [Stmt.slottedClause, List.nil_append]
    · simp only [Stmt.orderlyClause]; exact h
theorem analyseElse_sound : ∀ (o : Option (Stmt P)) (c : Ctx), Stmt.MadeOpt M U o → Stmt.straightOpt o →
    Post (fun r => Sound V (Stmt.slottedOpt r.1) (fun G b => Stmt.orderlyOpt V G b r.1) c r.2) (analyseElse src o c)
  | .none, c, _, _ => by simp only [analyseElse]; exact .pure (.here (fun _ _ _ _ => by simp only [Stmt.orderlyOpt]))
  | .some s, c, h, t => by
    simp only [Stmt.MadeOpt, Stmt.straightOpt] at h t
    simp only [analyseElse]
    refine (analyse_sound s c h t).bind (fun r hr => .pure ((hr.into (mergeBranch_next c r.2) (mergeBranch_mem c r.2)).imp ?_ (fun G k h => ?_)))
    · simp only [Stmt.slottedOpt]
    · simp only [Stmt.orderlyOpt]; exact h
theorem analyseOpt_sound : ∀ (o : Option (Stmt P)) (c : Ctx), Stmt.MadeOpt M U o → Stmt.straightOpt o →
    Post (fun r => Sound V (Stmt.slottedOpt r.1) (fun G b => Stmt.orderlyOpt V G b r.1) c r.2) (analyseOpt src o c)
  | .none, c, _, _ => by simp only [analyseOpt]; exact .pure (.here (fun _ _ _ _ => by simp only [Stmt.orderlyOpt]))
  | .some s, c, h, t => by
    simp only [Stmt.MadeOpt, Stmt.straightOpt] at h t
    simp only [analyseOpt]
    refine (analyse_sound s c h t).bind (fun r hr => .pure (hr.imp ?_ (fun G k h => ?_)))
    · simp only [Stmt.slottedOpt]
    · simp only [Stmt.orderlyOpt]; exact h
theorem analyseFirst_sound : ∀ (ss : List (Stmt P)) (c : Ctx), Stmt.MadeAll M U ss → Stmt.straightAll ss →
    Post (fun r => Sound V (Stmt.slottedAll r.1) (fun G b => Stmt.orderlyAll V G b r.1) c r.2) (analyseFirst src ss c)
  | [], c, _, _ => by simp only [analyseFirst]; exact .pure (.here (fun _ _ _ _ => by simp only [Stmt.orderlyAll]))
  | s :: ss, c, h, t => by
    simp only [Stmt.MadeAll, Stmt.straightAll] at h t
    simp only [analyseFirst]
    refine (analyse_sound s c h.1 t.1).bind (fun r hr => .pure (hr.imp ?_ (fun G k h' => ?_)))
    · simp only [Stmt.slottedAll]
      rw [(Stmt.MadeAll.orderly (V := V) (G := fun _ _ => True) (k := 0) h.2 t.2).2, List.append_nil]
    · simp only [Stmt.orderlyAll]; exact ⟨h', (Stmt.MadeAll.orderly h.2 t.2).1⟩
end

end
end
end Verif
