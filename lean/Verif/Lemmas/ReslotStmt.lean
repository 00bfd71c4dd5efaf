import Verif.Lemmas.ReslotCtx
import Verif.Lemmas.WritesMono

/-! Analysis of statements in two contexts in which the symbols of the script have different slots. -/

set_option linter.unusedSectionVars false

namespace Verif
open Py Spec

section
variable {P I : Type}

/-- The statement, and the hypertags defined in it, write slots from `n0` on only; all slots are below `m`. -/
structure Neatly (n0 m : Slot) (w : Prop) (ds : List (DefId × DefInfo P)) (fix : (Slot → Slot) → Prop) : Prop where
  writes : w
  defs : ∀ d ∈ ds, d.2.writes (Late n0)
  fix : ∀ h, Holds m h → fix h

abbrev NeatStmt (n0 m : Slot) (s : Stmt P) : Prop := Neatly n0 m (s.writes (Late n0)) s.defs (fun h => s.reslot h = s)
abbrev NeatAll (n0 m : Slot) (s : List (Stmt P)) : Prop := Neatly n0 m (Stmt.writesAll (Late n0) s) (Stmt.defsAll s) (fun h => Stmt.reslotAll h s = s)
abbrev NeatOpt (n0 m : Slot) (s : Option (Stmt P)) : Prop := Neatly n0 m (Stmt.writesOpt (Late n0) s) (Stmt.defsOpt s) (fun h => Stmt.reslotOpt h s = s)
abbrev NeatClause (n0 m : Slot) (s : Expr × Option (Stmt P)) : Prop :=
  Neatly n0 m (Stmt.writesClause (Late n0) s) (Stmt.defsClause s) (fun h => Stmt.reslotClause h s = s)
abbrev NeatClauses (n0 m : Slot) (s : List (Expr × Option (Stmt P))) : Prop :=
  Neatly n0 m (Stmt.writesClauses (Late n0) s) (Stmt.defsClauses s) (fun h => Stmt.reslotClauses h s = s)

section
variable {n0 m : Slot}

theorem Neatly.none {w : Prop} {fix : (Slot → Slot) → Prop} (hw : w) (hf : ∀ h, Holds m h → fix h) : Neatly (P := P) n0 m w [] fix :=
  ⟨hw, by simp, hf⟩

theorem Neatly.one {w w' : Prop} {fix fix' : (Slot → Slot) → Prop} {ds ds' : List (DefId × DefInfo P)} (h : Neatly n0 m w ds fix) (hd : ds' = ds)
    (hw : w → w') (hf : ∀ h, Holds m h → fix h → fix' h) : Neatly n0 m w' ds' fix' :=
  ⟨hw h.writes, by rw [hd]; exact h.defs, fun g hg => hf g hg (h.fix g hg)⟩

theorem Neatly.two {m' : Slot} {w w' w'' : Prop} {fix fix' fix'' : (Slot → Slot) → Prop} {ds ds' ds'' : List (DefId × DefInfo P)}
    (h : Neatly n0 m' w ds fix) (h' : Neatly n0 m w' ds' fix') (hm : m' ≤ m) (hd : ds'' = ds ++ ds')
    (hw : w → w' → w'') (hf : ∀ h, Holds m h → fix h → fix' h → fix'' h) : Neatly n0 m w'' ds'' fix'' :=
  ⟨hw h.writes h'.writes, by rw [hd]; exact fun d hd => (List.mem_append.1 hd).elim (h.defs d) (h'.defs d),
    fun g hg => hf g hg (h.fix g (hg.le hm)) (h'.fix g hg)⟩

theorem bare_neat {ss : List (Stmt P)} (h : ∀ s ∈ ss, s.bare) : NeatAll n0 m ss := by
  induction ss with
  | nil => exact .none (by simp only [Stmt.writesAll]) (fun _ _ => by simp only [Stmt.reslotAll])
  | cons s ss ih =>
    obtain ⟨h1, h2, h3⟩ := h s (by simp)
    have hl : ∀ o : Option Slot, o = none → Late n0 o := fun o h => by rw [h]; exact fun _ e => nomatch e
    have hs : NeatStmt n0 m s := ⟨Stmt.writes_mono hl s h2, fun d hd => DefInfo.writes_mono hl (h3 d hd), fun g _ => h1 g⟩
    exact hs.two (ih (fun x hx => h x (by simp [hx]))) (Nat.le_refl _) (by simp only [Stmt.defsAll]) (fun a b => by simp only [Stmt.writesAll]; exact ⟨a, b⟩)
      (fun g _ a b => by simp only [Stmt.reslotAll]; rw [a, b])

theorem bare_reslot {ss : List (Stmt P)} (h : ∀ s ∈ ss, s.bare) (f : Slot → Slot) : Stmt.reslotAll f ss = ss := by
  induction ss with
  | nil => simp only [Stmt.reslotAll]
  | cons s ss ih =>
    simp only [Stmt.reslotAll]
    rw [(h s (by simp)).1, ih (fun x hx => h x (by simp [hx]))]

end

section
variable {f : Slot → Slot} {p : Str → Prop} {n0 : Slot} {E : Prop} {g g' : List (Str × SlotInfo)} (hS : Seating f p n0 g g') {src : Source P I}
include hS

local notation "Ss" => Ctx.Seat f p n0 E g g'
local notation "Sd" => Seated f p n0 E g g'

theorem inner_seat {c c' : Ctx} (hc : Ss c c') : Ss { c with regular := c.regular + 1 } { c' with regular := c'.regular + 1 } :=
  ⟨hc.binds, by simp only [hc.regular], hc.control, hc.hypertag, hc.prolog, hc.next, hc.step, hc.least, hc.below⟩

theorem inner_seat2 {c c' : Ctx} (hc : Ss c c') : Ss { c with regular := c.regular + 1, hypertag := c.hypertag + 1 }
    { c' with regular := c'.regular + 1, hypertag := c'.hypertag + 1 } :=
  ⟨hc.binds, by simp only [hc.regular], hc.control, by simp only [hc.hypertag], hc.prolog, hc.next, hc.step, hc.least, hc.below⟩

theorem control_seat {c c' : Ctx} (hc : Ss c c') : Ss { c with control := c.control + 1 } { c' with control := c'.control + 1 } :=
  ⟨hc.binds, hc.regular, by simp only [hc.control], hc.hypertag, hc.prolog, hc.next, hc.step, hc.least, hc.below⟩

theorem control_back {c c' c1 c1' : Ctx} (h : Ss c c') (hc : Ss c1 c1') : Ss { c1 with control := c.control } { c1' with control := c'.control } :=
  ⟨hc.binds, hc.regular, h.control, hc.hypertag, hc.prolog, hc.next, hc.step, hc.least, hc.below⟩

mutual
theorem analyse_seated : ∀ (s : Stmt P) (c c' : Ctx), Ss c c' → s.onlyNames src p → s.tails Stmt.bare → (E ∨ s.noContext) → (c.regular = 0 → ∀ y ∈ s.defines src, 0 < n0 → y ∉ g.map Prod.fst) →
    Sd c (Stmt.reslot f) (NeatStmt n0) (analyse src s c) (analyse src s c')
  | .static _, c, c', hc, _, _, _, _ => by
    simp only [analyse]
    exact .pure hc (.refl _) (by simp only [Stmt.reslot]) (.none (by simp only [Stmt.writes]) (fun _ _ => by simp only [Stmt.reslot]))
  | .indent _, c, c', hc, _, _, _, _ => by
    simp only [analyse]
    exact .pure hc (.refl _) (by simp only [Stmt.reslot]) (.none (by simp only [Stmt.writes]) (fun _ _ => by simp only [Stmt.reslot]))
  | .dedent _, c, c', hc, _, _, _, _ => by
    simp only [analyse]
    exact .pure hc (.refl _) (by simp only [Stmt.reslot]) (.none (by simp only [Stmt.writes]) (fun _ _ => by simp only [Stmt.reslot]))
  | .comment, c, c', hc, _, _, _, _ => by
    simp only [analyse]
    exact .pure hc (.refl _) (by simp only [Stmt.reslot]) (.none (by simp only [Stmt.writes]) (fun _ _ => by simp only [Stmt.reslot]))
  | .pass, c, c', hc, _, _, _, _ => by
    simp only [analyse]
    exact .pure hc (.refl _) (by simp only [Stmt.reslot]) (.none (by simp only [Stmt.writes]) (fun _ _ => by simp only [Stmt.reslot]))
  | .line l, c, c', hc, w, _, _, _ => by
    simp only [analyse]
    simp only [Stmt.onlyNames] at w
    exact .first (analyseLine_maps (fun y hy => hc.lookup hS hy) hc.below l w) (fun a h => .pure hc (.refl _) (by simp only [Stmt.reslot])
      (.none (by simp only [Stmt.writes]) (fun g k => by simp only [Stmt.reslot]; rw [h g k])))
  | .xblock _ _ b, c, c', hc, w, t, k, d => by
    simp only [analyse]
    simp only [Stmt.onlyNames] at w
    simp only [Stmt.tails] at t
    simp only [Stmt.noContext] at k
    simp only [Stmt.defines] at d
    obtain ⟨e1, e2⟩ := leaveProlog_onward b c
    refine Seated.le ?_ (z := c) (z' := leaveProlog b c) ⟨Nat.le_of_eq e1.symm, e2⟩
    exact (analyse_seated b _ _ (leaveProlog_seat b hc) w t k (fun h => d (e2 ▸ h))).bind (fun b' c1 c1' k1 hn h =>
      .pure k1 hn (by simp only [Stmt.reslot]) (h.one (by simp only [Stmt.defs]) (fun h => by simp only [Stmt.writes]; exact h)
        (fun g _ e => by simp only [Stmt.reslot]; rw [e])))
  | .text _ items, c, c', hc, w, _, _, _ => by
    simp only [analyse]
    simp only [Stmt.onlyNames] at w
    exact .first (analyseItems_maps (fun y hy => hc.lookup hS hy) hc.below items w) (fun a h => .pure hc (.refl _) (by simp only [Stmt.reslot])
      (.none (by simp only [Stmt.writes]) (fun g k => by simp only [Stmt.reslot]; rw [h g k])))
  | .embed e, c, c', hc, w, _, _, _ => by
    simp only [analyse]
    simp only [Stmt.onlyNames] at w
    exact .first (analyseExpr_maps (fun y hy => hc.lookup hS hy) hc.below e w) (fun a h => .pure hc (.refl _) (by simp only [Stmt.reslot])
      (.none (by simp only [Stmt.writes]) (fun g k => by simp only [Stmt.reslot]; rw [h g k])))
  | .struct tags b, c, c', hc, w, t, k, d => by
    simp only [analyse]
    simp only [Stmt.onlyNames] at w
    simp only [Stmt.tails] at t
    simp only [Stmt.noContext] at k
    refine .first (analyseTags_maps (fun y hy => hc.lookup hS hy) hc.below tags w.1) (fun tags' ht => ?_)
    rcases analyse_seated b _ _ (inner_seat hS hc) w.2 t k (fun h => absurd h (Nat.succ_ne_zero _)) with ⟨e, h1, h2⟩ | ⟨b', c1, c1', h1, h2, k1, hn, h⟩
    · rw [h1, h2]; exact .error
    · rw [h1, h2]
      refine .pure (leave_seat hc k1) ⟨hn.1, rfl⟩ (by simp only [Stmt.reslot]) (h.one (by simp only [Stmt.defs])
        (fun h => by simp only [Stmt.writes]; exact h) (fun g hg e => ?_))
      simp only [Stmt.reslot]
      rw [e, ht g (hg.le hn.1)]
  | .defn id name _ ba as b, c, c', hc, w, t, k, d => by
    simp only [analyse]
    simp only [Stmt.onlyNames] at w
    simp only [Stmt.tails] at t
    simp only [Stmt.noContext] at k
    obtain ⟨w1, w2, w3⟩ := w
    by_cases hk : 1 ≤ c.control
    · rw [if_pos hk, if_pos (by rw [hc.control]; exact hk)]
      exact .error
    · rw [if_neg hk, if_neg (by rw [hc.control]; exact hk)]
      have hc1 := inner_seat2 hS hc
      refine .first (analyseDefaults_maps (fun y hy => hc1.lookup hS hy) hc1.below ba.toList (fun a ha => w2 a (List.mem_append_left _ ha)))
        (fun ba1 hba => .first (analyseDefaults_maps (fun y hy => hc1.lookup hS hy) hc1.below as (fun a ha => w2 a (List.mem_append_right _ ha)))
          (fun as1 has => ?_))
      rcases declareAttrs_seated (I := I) hS ba1 hba.1 _ _ hc1 hba.2 with ⟨e, h1, h2⟩ | ⟨ba2, c2, c2', h1, h2, k2, hn2, hba2⟩
      · rw [h1, h2]; exact .error
      rw [h1, h2]
      rcases declareAttrs_seated (I := I) hS as1 has.1 c2 c2' k2 (fun h hh => has.2 h (hh.le hn2.1)) with ⟨e, h1, h2⟩ | ⟨as2, c3, c3', h1, h2, k3, hn3, has2⟩
      · show Sd c _ _ (declareAttrs as1 c2 >>= _) (declareAttrs _ c2' >>= _)
        rw [h1, h2]; exact .error
      show Sd c _ _ (declareAttrs as1 c2 >>= _) (declareAttrs _ c2' >>= _)
      rw [h1, h2]
      have hr3 : c3.regular = c.regular + 1 := hn3.2.trans hn2.2
      show Sd c _ _ (analyse src b c3 >>= _) (analyse src b c3' >>= _)
      rcases analyse_seated b c3 c3' k3 w3 t k (fun h => absurd (hr3 ▸ h) (Nat.succ_ne_zero _)) with ⟨e, h1, h2⟩ | ⟨b', c4, c4', h1, h2, k4, hn4, h⟩
      · rw [h1, h2]; exact .error
      rw [h1, h2]
      show Sd c _ _ (newSlot (c.leave c4) _ >>= _) (newSlot (c'.leave c4') _ >>= _)
      have hl : c.Onward (c.leave c4) := ⟨Nat.le_trans hn2.1 (Nat.le_trans hn3.1 hn4.1), rfl⟩
      refine Seated.le ?_ hl
      refine (newSlot_seated hS (leave_seat hc k4) w1).bind (fun s c5 c5' k5 hn5 hs => .pure k5 hn5 ?_ ⟨?_, ?_, fun g hg => ?_⟩)
      · simp only [Stmt.reslot, Option.map_some, List.head?_map]; rfl
      · simp only [Stmt.writes]; exact late_some hs.1
      · simp only [Stmt.defs]
        intro x hx
        rcases List.mem_cons.1 hx with rfl | hx
        · refine ⟨fun a ha => hba2.1 a ?_, has2.1, h.writes⟩
          exact List.mem_of_mem_head? ha
        · exact h.defs x hx
      · have h45 : c4.next ≤ c5.next := hn5.1
        simp only [Stmt.reslot, Option.map_some]
        rw [hg _ hs.2, h.fix g (hg.le h45), has2.2 g (hg.le (Nat.le_trans hn4.1 h45)), ← List.head?_map,
          hba2.2 g (hg.le (Nat.le_trans hn3.1 (Nat.le_trans hn4.1 h45)))]
  | .imports true path items, c, c', hc, w, _, k, _ => by
    simp only [analyse]
    simp only [Stmt.onlyNames] at w
    have hE : E := k.resolve_right (by simp [Stmt.noContext])
    rw [hc.prolog hE]
    split
    · exact (analyseImports_seated hS src path items w c c' hc).bind (fun is c1 c1' k1 hn h =>
        .pure k1 hn (by simp only [Stmt.reslot]) (.none (by simp only [Stmt.writes]; exact h.1) (fun g hg => by simp only [Stmt.reslot]; rw [h.2 g hg])))
    · exact .error
  | .imports false path items, c, c', hc, w, _, _, _ => by
    simp only [analyse]
    simp only [Stmt.onlyNames] at w
    rw [hc.control]
    split
    · exact .error
    · exact (analyseImports_seated hS src path items w c c' hc).bind (fun is c1 c1' k1 hn h =>
        .pure k1 hn (by simp only [Stmt.reslot]) (.none (by simp only [Stmt.writes]; exact h.1) (fun g hg => by simp only [Stmt.reslot]; rw [h.2 g hg])))
  | .tryBlock bs, c, c', hc, w, t, k, d => by
    simp only [analyse]
    simp only [Stmt.onlyNames] at w
    simp only [Stmt.tails] at t
    simp only [Stmt.noContext] at k
    simp only [Stmt.defines] at d
    refine Seated.le ?_ (z := c) (z' := { c with control := c.control + 1 }) ⟨Nat.le_refl _, rfl⟩
    exact (analyseBranches_seated bs _ _ (control_seat hS hc) w t k d).bind (fun bs' c1 c1' k1 hn h =>
      .pure (c := { c1 with control := c.control }) (control_back hS hc k1) hn (by simp only [Stmt.reslot])
        (h.one (by simp only [Stmt.defs]) (fun h => by simp only [Stmt.writes]; exact h) (fun g _ e => by simp only [Stmt.reslot]; rw [e])))
  | .ifBlock cs els, c, c', hc, w, t, k, d => by
    simp only [analyse]
    simp only [Stmt.onlyNames] at w
    simp only [Stmt.tails] at t
    simp only [Stmt.noContext] at k
    simp only [Stmt.defines, List.mem_append] at d
    refine Seated.le ?_ (z := c) (z' := { c with control := c.control + 1 }) ⟨Nat.le_refl _, rfl⟩
    refine (analyseClauses_seated cs _ _ (control_seat hS hc) w.1 t.1 (k.imp id And.left) (fun e y hy => d e y (.inl hy))).bind (fun cs' c1 c1' k1 hn h => ?_)
    refine Seated.le ?_ hn
    exact (analyseElse_seated els c1 c1' k1 w.2 t.2 (k.imp id And.right) (fun e y hy => d (hn.2 ▸ e) y (.inr hy))).bind (fun els' c2 c2' k2 hn2 h' =>
      .pure (c := { c2 with control := c.control }) (control_back hS hc k2) hn2 (by simp only [Stmt.reslot])
        (h.two h' hn2.1 (by simp only [Stmt.defs]) (fun a b => by simp only [Stmt.writes]; exact ⟨a, b⟩) (fun g _ a b => by simp only [Stmt.reslot]; rw [a, b])))
  | .elseClause b, c, c', hc, w, t, k, d => by
    simp only [analyse]
    simp only [Stmt.onlyNames] at w
    simp only [Stmt.tails] at t
    simp only [Stmt.noContext] at k
    simp only [Stmt.defines] at d
    exact (analyseOpt_seated b c c' hc w t k d).bind (fun b' c1 c1' k1 hn h =>
      .pure k1 hn (by simp only [Stmt.reslot]) (h.one (by simp only [Stmt.defs]) (fun h => by simp only [Stmt.writes]; exact h)
        (fun g _ e => by simp only [Stmt.reslot]; rw [e])))
  | .whileBlock e b els, c, c', hc, w, t, k, d => by
    simp only [analyse]
    simp only [Stmt.onlyNames] at w
    simp only [Stmt.tails] at t
    simp only [Stmt.noContext] at k
    simp only [Stmt.defines, List.mem_append] at d
    refine .first (analyseExpr_maps (fun y hy => hc.lookup hS hy) hc.below e w.1) (fun e' he => ?_)
    have hc1 := control_seat hS hc
    refine Seated.le ?_ (z := c) (z' := { c with control := c.control + 1 }) ⟨Nat.le_refl _, rfl⟩
    refine (analyseOpt_seated b _ _ hc1 w.2.1 t.1 (k.imp id And.left) (fun e y hy => d e y (.inl hy))).bind (fun b' c1 c1' k1 hn h => ?_)
    have hm := merge_onward hn
    refine Seated.le ?_ hm
    refine (analyseElse_seated els _ _ (merge_seat hS hc1 k1) w.2.2 t.2 (k.imp id And.right) (fun e y hy => d (hm.2 ▸ e) y (.inr hy))).bind (fun els' c2 c2' k2 hn2 h' =>
      .pure (c := { c2 with control := c.control }) (control_back hS hc k2) hn2 (by simp only [Stmt.reslot])
        (h.two h' (by have := hn2.1; rw [merge_next] at this; exact this) (by simp only [Stmt.defs]) (fun a b => by simp only [Stmt.writes]; exact ⟨a, b⟩) (fun g hg a b => ?_)))
    simp only [Stmt.reslot]
    rw [a, b, he g (hg.le (Nat.le_trans hm.1 hn2.1))]
  | .forBlock tg e rest, c, c', hc, w, t, k, d => by
    simp only [analyse]
    simp only [Stmt.onlyNames] at w
    simp only [Stmt.tails] at t
    simp only [Stmt.noContext] at k
    simp only [Stmt.defines, List.mem_append] at d
    refine .first (analyseExpr_maps (fun y hy => hc.lookup hS hy) hc.below e w.1) (fun e' he => ?_)
    have hc1 := control_seat hS hc
    refine Seated.le ?_ (z := c) (z' := { c with control := c.control + 1 }) ⟨Nat.le_refl _, rfl⟩
    refine (analyseTarget_seated hS tg _ _ hc1 w.2.1 (fun e y hy => d e y (.inl hy))).bind (fun tg' c1 c1' k1 hn h => ?_)
    refine Seated.le ?_ hn
    refine (analyseFirst_seated rest c1 c1' k1 w.2.2 t k (fun e y hy => d (hn.2 ▸ e) y (.inr hy))).bind (fun rest' c2 c2' k2 hn2 h' =>
      .pure (c := { c2 with control := c.control }) (control_back hS hc k2) hn2 (by simp only [Stmt.reslot])
        (h'.one (by simp only [Stmt.defs]) (fun b => by simp only [Stmt.writes]; exact ⟨h.1, b⟩) (fun g hg a => ?_)))
    simp only [Stmt.reslot]
    rw [a, h.2 g (hg.le hn2.1), he g (hg.le (Nat.le_trans hn.1 hn2.1))]
  | .exprBlock e, c, c', hc, w, _, _, _ => by
    simp only [analyse]
    simp only [Stmt.onlyNames] at w
    exact .first (analyseExpr_maps (fun y hy => hc.lookup hS hy) hc.below e w) (fun a h => .pure hc (.refl _) (by simp only [Stmt.reslot])
      (.none (by simp only [Stmt.writes]) (fun g k => by simp only [Stmt.reslot]; rw [h g k])))
  | .assign tg op e, c, c', hc, w, _, _, d => by
    simp only [analyse]
    simp only [Stmt.onlyNames] at w
    simp only [Stmt.defines] at d
    refine .first (analyseExpr_maps (fun y hy => hc.lookup hS hy) hc.below e w.1) (fun e' he => ?_)
    refine (analyseTarget_seated hS tg c c' hc w.2 d).bind (fun tg' c1 c1' k1 hn h =>
      .pure k1 hn (by simp only [Stmt.reslot]) (.none (by simp only [Stmt.writes]; exact h.1) (fun g hg => ?_)))
    simp only [Stmt.reslot]
    rw [h.2 g hg, he g (hg.le hn.1)]
  | .body ss, c, c', hc, w, t, k, d => by
    simp only [analyse]
    simp only [Stmt.onlyNames] at w
    simp only [Stmt.tails] at t
    simp only [Stmt.noContext] at k
    simp only [Stmt.defines] at d
    exact (analyseAll_seated ss c c' hc w t k d).bind (fun b' c1 c1' k1 hn h =>
      .pure k1 hn (by simp only [Stmt.reslot]) (h.one (by simp only [Stmt.defs]) (fun h => by simp only [Stmt.writes]; exact h)
        (fun g _ e => by simp only [Stmt.reslot]; rw [e])))
theorem analyseAll_seated : ∀ (ss : List (Stmt P)) (c c' : Ctx), Ss c c' → Stmt.onlyNamesAll src p ss → Stmt.tailsAll Stmt.bare ss →
    (E ∨ Stmt.noContextAll ss) → (c.regular = 0 → ∀ y ∈ Stmt.definesAll src ss, 0 < n0 → y ∉ g.map Prod.fst) → Sd c (Stmt.reslotAll f) (NeatAll n0) (analyseAll src ss c) (analyseAll src ss c')
  | [], c, c', hc, _, _, _, _ => by
    simp only [analyseAll]
    exact .pure hc (.refl _) (by simp only [Stmt.reslotAll]) (.none (by simp only [Stmt.writesAll]) (fun _ _ => by simp only [Stmt.reslotAll]))
  | s :: ss, c, c', hc, w, t, k, d => by
    simp only [analyseAll]
    simp only [Stmt.onlyNamesAll] at w
    simp only [Stmt.tailsAll] at t
    simp only [Stmt.noContextAll] at k
    simp only [Stmt.definesAll, List.mem_append] at d
    refine (analyse_seated s c c' hc w.1 t.1 (k.imp id And.left) (fun e y hy => d e y (.inl hy))).bind (fun s' c1 c1' k1 hn h => ?_)
    refine Seated.le ?_ hn
    exact (analyseAll_seated ss c1 c1' k1 w.2 t.2 (k.imp id And.right) (fun e y hy => d (hn.2 ▸ e) y (.inr hy))).bind (fun ss' c2 c2' k2 hn2 h' =>
      .pure k2 hn2 (by simp only [Stmt.reslotAll]) (h.two h' hn2.1 (by simp only [Stmt.defsAll]) (fun a b => by simp only [Stmt.writesAll]; exact ⟨a, b⟩)
        (fun g _ a b => by simp only [Stmt.reslotAll]; rw [a, b])))
theorem analyseBranches_seated : ∀ (ss : List (Stmt P)) (c c' : Ctx), Ss c c' → Stmt.onlyNamesAll src p ss → Stmt.tailsAll Stmt.bare ss →
    (E ∨ Stmt.noContextAll ss) → (c.regular = 0 → ∀ y ∈ Stmt.definesAll src ss, 0 < n0 → y ∉ g.map Prod.fst) → Sd c (Stmt.reslotAll f) (NeatAll n0) (analyseBranches src ss c) (analyseBranches src ss c')
  | [], c, c', hc, _, _, _, _ => by
    simp only [analyseBranches]
    exact .pure hc (.refl _) (by simp only [Stmt.reslotAll]) (.none (by simp only [Stmt.writesAll]) (fun _ _ => by simp only [Stmt.reslotAll]))
  | s :: ss, c, c', hc, w, t, k, d => by
    simp only [analyseBranches]
    simp only [Stmt.onlyNamesAll] at w
    simp only [Stmt.tailsAll] at t
    simp only [Stmt.noContextAll] at k
    simp only [Stmt.definesAll, List.mem_append] at d
    refine (analyse_seated s c c' hc w.1 t.1 (k.imp id And.left) (fun e y hy => d e y (.inl hy))).bind (fun s' c1 c1' k1 hn h => ?_)
    have hm := merge_onward hn
    refine Seated.le ?_ hm
    exact (analyseBranches_seated ss _ _ (merge_seat hS hc k1) w.2 t.2 (k.imp id And.right) (fun e y hy => d (hm.2 ▸ e) y (.inr hy))).bind (fun ss' c2 c2' k2 hn2 h' =>
      .pure k2 hn2 (by simp only [Stmt.reslotAll]) (h.two h' (by have := hn2.1; rw [merge_next] at this; exact this) (by simp only [Stmt.defsAll])
        (fun a b => by simp only [Stmt.writesAll]; exact ⟨a, b⟩) (fun g _ a b => by simp only [Stmt.reslotAll]; rw [a, b])))
theorem analyseClauses_seated : ∀ (cs : List (Expr × Option (Stmt P))) (c c' : Ctx), Ss c c' → Stmt.onlyNamesClauses src p cs → Stmt.tailsClauses Stmt.bare cs →
    (E ∨ Stmt.noContextClauses cs) → (c.regular = 0 → ∀ y ∈ Stmt.definesClauses src cs, 0 < n0 → y ∉ g.map Prod.fst) →
    Sd c (Stmt.reslotClauses f) (NeatClauses n0) (analyseClauses src cs c) (analyseClauses src cs c')
  | [], c, c', hc, _, _, _, _ => by
    simp only [analyseClauses]
    exact .pure hc (.refl _) (by simp only [Stmt.reslotClauses]) (.none (by simp only [Stmt.writesClauses]) (fun _ _ => by simp only [Stmt.reslotClauses]))
  | s :: ss, c, c', hc, w, t, k, d => by
    simp only [analyseClauses]
    simp only [Stmt.onlyNamesClauses] at w
    simp only [Stmt.tailsClauses] at t
    simp only [Stmt.noContextClauses] at k
    simp only [Stmt.definesClauses, List.mem_append] at d
    refine (analyseClause_seated s c c' hc w.1 t.1 (k.imp id And.left) (fun e y hy => d e y (.inl hy))).bind (fun s' c1 c1' k1 hn h => ?_)
    have hm := merge_onward hn
    refine Seated.le ?_ hm
    exact (analyseClauses_seated ss _ _ (merge_seat hS hc k1) w.2 t.2 (k.imp id And.right) (fun e y hy => d (hm.2 ▸ e) y (.inr hy))).bind (fun ss' c2 c2' k2 hn2 h' =>
      .pure k2 hn2 (by simp only [Stmt.reslotClauses]) (h.two h' (by have := hn2.1; rw [merge_next] at this; exact this) (by simp only [Stmt.defsClauses])
        (fun a b => by simp only [Stmt.writesClauses]; exact ⟨a, b⟩) (fun g _ a b => by simp only [Stmt.reslotClauses]; rw [a, b])))
theorem analyseClause_seated : ∀ (cl : Expr × Option (Stmt P)) (c c' : Ctx), Ss c c' → Stmt.onlyNamesClause src p cl → Stmt.tailsClause Stmt.bare cl →
    (E ∨ Stmt.noContextClause cl) → (c.regular = 0 → ∀ y ∈ Stmt.definesClause src cl, 0 < n0 → y ∉ g.map Prod.fst) →
    Sd c (Stmt.reslotClause f) (NeatClause n0) (analyseClause src cl c) (analyseClause src cl c')
  | (e, b), c, c', hc, w, t, k, d => by
    simp only [analyseClause]
    simp only [Stmt.onlyNamesClause] at w
    simp only [Stmt.tailsClause] at t
    simp only [Stmt.noContextClause] at k
    simp only [Stmt.definesClause] at d
    refine .first (analyseExpr_maps (fun y hy => hc.lookup hS hy) hc.below e w.1) (fun e' he => ?_)
    exact (analyseOpt_seated b c c' hc w.2 t k d).bind (fun b' c1 c1' k1 hn h =>
      .pure k1 hn (by simp only [Stmt.reslotClause]) (h.one (by simp only [Stmt.defsClause]) (fun h => by simp only [Stmt.writesClause]; exact h)
        (fun g hg e => by simp only [Stmt.reslotClause]; rw [e, he g (hg.le hn.1)])))
theorem analyseElse_seated : ∀ (o : Option (Stmt P)) (c c' : Ctx), Ss c c' → Stmt.onlyNamesOpt src p o → Stmt.tailsOpt Stmt.bare o →
    (E ∨ Stmt.noContextOpt o) → (c.regular = 0 → ∀ y ∈ Stmt.definesOpt src o, 0 < n0 → y ∉ g.map Prod.fst) → Sd c (Stmt.reslotOpt f) (NeatOpt n0) (analyseElse src o c) (analyseElse src o c')
  | .none, c, c', hc, _, _, _, _ => by
    simp only [analyseElse]
    exact .pure hc (.refl _) (by simp only [Stmt.reslotOpt]) (.none (by simp only [Stmt.writesOpt]) (fun _ _ => by simp only [Stmt.reslotOpt]))
  | some s, c, c', hc, w, t, k, d => by
    simp only [analyseElse]
    simp only [Stmt.onlyNamesOpt] at w
    simp only [Stmt.tailsOpt] at t
    simp only [Stmt.noContextOpt] at k
    simp only [Stmt.definesOpt] at d
    refine (analyse_seated s c c' hc w t k d).bind (fun s' c1 c1' k1 hn h => ?_)
    refine .pure (merge_seat hS hc k1) (merge_onward hn) (by simp only [Stmt.reslotOpt]) ?_
    rw [merge_next]
    exact h.one (by simp only [Stmt.defsOpt]) (fun h => by simp only [Stmt.writesOpt]; exact h) (fun g _ e => by simp only [Stmt.reslotOpt]; rw [e])
theorem analyseOpt_seated : ∀ (o : Option (Stmt P)) (c c' : Ctx), Ss c c' → Stmt.onlyNamesOpt src p o → Stmt.tailsOpt Stmt.bare o →
    (E ∨ Stmt.noContextOpt o) → (c.regular = 0 → ∀ y ∈ Stmt.definesOpt src o, 0 < n0 → y ∉ g.map Prod.fst) → Sd c (Stmt.reslotOpt f) (NeatOpt n0) (analyseOpt src o c) (analyseOpt src o c')
  | .none, c, c', hc, _, _, _, _ => by
    simp only [analyseOpt]
    exact .pure hc (.refl _) (by simp only [Stmt.reslotOpt]) (.none (by simp only [Stmt.writesOpt]) (fun _ _ => by simp only [Stmt.reslotOpt]))
  | some s, c, c', hc, w, t, k, d => by
    simp only [analyseOpt]
    simp only [Stmt.onlyNamesOpt] at w
    simp only [Stmt.tailsOpt] at t
    simp only [Stmt.noContextOpt] at k
    simp only [Stmt.definesOpt] at d
    exact (analyse_seated s c c' hc w t k d).bind (fun s' c1 c1' k1 hn h =>
      .pure k1 hn (by simp only [Stmt.reslotOpt]) (h.one (by simp only [Stmt.defsOpt]) (fun h => by simp only [Stmt.writesOpt]; exact h)
        (fun g _ e => by simp only [Stmt.reslotOpt]; rw [e])))
theorem analyseFirst_seated : ∀ (ss : List (Stmt P)) (c c' : Ctx), Ss c c' → Stmt.onlyNamesAll src p ss → Stmt.tailsFirst Stmt.bare ss →
    (E ∨ Stmt.noContextAll ss) → (c.regular = 0 → ∀ y ∈ Stmt.definesAll src ss, 0 < n0 → y ∉ g.map Prod.fst) → Sd c (Stmt.reslotAll f) (NeatAll n0) (analyseFirst src ss c) (analyseFirst src ss c')
  | [], c, c', hc, _, _, _, _ => by
    simp only [analyseFirst]
    exact .pure hc (.refl _) (by simp only [Stmt.reslotAll]) (.none (by simp only [Stmt.writesAll]) (fun _ _ => by simp only [Stmt.reslotAll]))
  | s :: ss, c, c', hc, w, t, k, d => by
    simp only [analyseFirst]
    simp only [Stmt.onlyNamesAll] at w
    simp only [Stmt.tailsFirst] at t
    simp only [Stmt.noContextAll] at k
    simp only [Stmt.definesAll, List.mem_append] at d
    refine (analyse_seated s c c' hc w.1 t.1 (k.imp id And.left) (fun e y hy => d e y (.inl hy))).bind (fun s' c1 c1' k1 hn h =>
      .pure k1 hn (by simp only [Stmt.reslotAll]; rw [bare_reslot t.2]) ?_)
    exact h.two (bare_neat t.2) (Nat.le_refl _) (by simp only [Stmt.defsAll]) (fun a b => by simp only [Stmt.writesAll]; exact ⟨a, b⟩)
      (fun g _ a b => by simp only [Stmt.reslotAll]; rw [a, b])
end

end

end
end Verif
