import Verif.Spec.Part
import Verif.Lemmas.AnalyseNames

/-! Slots of hypertags are hidden from blocks outside of them. -/

namespace Verif
open Py

section
variable {P I α β : Type}

theorem ok_bind {c : Except (AErr I) α} {f : α → Except (AErr I) β} {b : β}
    (h : (c >>= f) = .ok b) : ∃ a, c = .ok a ∧ f a = .ok b := by
  cases c with
  | error e => cases h
  | ok a => exact ⟨a, rfl, h⟩

variable (src : Source P I)

theorem analyseAll_split {pre : List (Stmt P)} {s : Stmt P} {post : List (Stmt P)} {c c1 c' : Ctx}
    {pre' r} (hp : analyseAll src pre c = .ok (pre', c1))
    (h : analyseAll src (pre ++ s :: post) c = .ok (r, c')) : ∃ s' c2 post',
    analyse src s c1 = .ok (s', c2) ∧ analyseAll src post c2 = .ok (post', c') ∧
    r = pre' ++ s' :: post' := by
  induction pre generalizing c pre' r with
  | nil =>
    simp only [analyseAll] at hp
    cases hp
    simp only [List.nil_append, analyseAll] at h
    obtain ⟨⟨s', c2⟩, h1, h⟩ := ok_bind h
    obtain ⟨⟨post', c3⟩, h2, h⟩ := ok_bind h
    cases h
    exact ⟨s', c2, post', h1, h2, rfl⟩
  | cons p pre ih =>
    simp only [analyseAll] at hp
    simp only [List.cons_append, analyseAll] at h
    obtain ⟨⟨p', d⟩, h1, h⟩ := ok_bind h
    obtain ⟨⟨r', c3⟩, h2, h⟩ := ok_bind h
    cases h
    obtain ⟨⟨p'', d'⟩, k1, hp⟩ := ok_bind hp
    obtain ⟨⟨pre'', c4⟩, k2, hp⟩ := ok_bind hp
    cases hp
    rw [h1] at k1
    cases k1
    obtain ⟨s', c2, post', e1, e2, e3⟩ := ih k2 h2
    exact ⟨s', c2, post', e1, e2, by simp only [e3, List.cons_append]⟩

theorem analyseBranches_split {pre : List (Stmt P)} {s : Stmt P} {post : List (Stmt P)}
    {c c1 c' : Ctx} {pre' r} (hp : analyseBranches src pre c = .ok (pre', c1))
    (h : analyseBranches src (pre ++ s :: post) c = .ok (r, c')) : ∃ s' c2 post',
    analyse src s c1 = .ok (s', c2) ∧
    analyseBranches src post (c1.mergeBranch c2) = .ok (post', c') ∧ r = pre' ++ s' :: post' := by
  induction pre generalizing c pre' r with
  | nil =>
    simp only [analyseBranches] at hp
    cases hp
    simp only [List.nil_append, analyseBranches] at h
    obtain ⟨⟨s', c2⟩, h1, h⟩ := ok_bind h
    obtain ⟨⟨post', c3⟩, h2, h⟩ := ok_bind h
    cases h
    exact ⟨s', c2, post', h1, h2, rfl⟩
  | cons p pre ih =>
    simp only [analyseBranches] at hp
    simp only [List.cons_append, analyseBranches] at h
    obtain ⟨⟨p', d⟩, h1, h⟩ := ok_bind h
    obtain ⟨⟨r', c3⟩, h2, h⟩ := ok_bind h
    cases h
    obtain ⟨⟨p'', d'⟩, k1, hp⟩ := ok_bind hp
    obtain ⟨⟨pre'', c4⟩, k2, hp⟩ := ok_bind hp
    cases hp
    rw [h1] at k1
    cases k1
    obtain ⟨s', c2, post', e1, e2, e3⟩ := ih k2 h2
    exact ⟨s', c2, post', e1, e2, by simp only [e3, List.cons_append]⟩

theorem analyseClauses_split {pre : List (Expr × Option (Stmt P))} {s : Expr × Option (Stmt P)}
    {post : List (Expr × Option (Stmt P))}
    {c c1 c' : Ctx} {pre' r} (hp : analyseClauses src pre c = .ok (pre', c1))
    (h : analyseClauses src (pre ++ s :: post) c = .ok (r, c')) : ∃ s' c2 post',
    analyseClause src s c1 = .ok (s', c2) ∧
    analyseClauses src post (c1.mergeBranch c2) = .ok (post', c') ∧ r = pre' ++ s' :: post' := by
  induction pre generalizing c pre' r with
  | nil =>
    simp only [analyseClauses] at hp
    cases hp
    simp only [List.nil_append, analyseClauses] at h
    obtain ⟨⟨s', c2⟩, h1, h⟩ := ok_bind h
    obtain ⟨⟨post', c3⟩, h2, h⟩ := ok_bind h
    cases h
    exact ⟨s', c2, post', h1, h2, rfl⟩
  | cons p pre ih =>
    simp only [analyseClauses] at hp
    simp only [List.cons_append, analyseClauses] at h
    obtain ⟨⟨p', d⟩, h1, h⟩ := ok_bind h
    obtain ⟨⟨r', c3⟩, h2, h⟩ := ok_bind h
    cases h
    obtain ⟨⟨p'', d'⟩, k1, hp⟩ := ok_bind hp
    obtain ⟨⟨pre'', c4⟩, k2, hp⟩ := ok_bind hp
    cases hp
    rw [h1] at k1
    cases k1
    obtain ⟨s', c2, post', e1, e2, e3⟩ := ih k2 h2
    exact ⟨s', c2, post', e1, e2, by simp only [e3, List.cons_append]⟩

theorem mem_defsClauses (cs : List (Expr × Option (Stmt P))) (d : DefId × DefInfo P) :
    d ∈ Stmt.defsClauses cs ↔ ∃ c ∈ cs, d ∈ Stmt.defsClause c := by
  induction cs with
  | nil => simp [Stmt.defsClauses]
  | cons a as ih => simp [Stmt.defsClauses, ih]

theorem tailsAll_iff {K : Stmt P → Prop} (ss : List (Stmt P)) :
    Stmt.tailsAll K ss ↔ ∀ s ∈ ss, s.tails K := by
  induction ss with
  | nil => simp [Stmt.tailsAll]
  | cons a as ih => simp [Stmt.tailsAll, ih]

theorem tailsClauses_iff {K : Stmt P → Prop} (ss : List (Expr × Option (Stmt P))) :
    Stmt.tailsClauses K ss ↔ ∀ s ∈ ss, Stmt.tailsClause K s := by
  induction ss with
  | nil => simp [Stmt.tailsClauses]
  | cons a as ih => simp [Stmt.tailsClauses, ih]

/-- Slots of hypertags defined before are hidden. -/
theorem hidden_before {N : Prop} {c c1 ct : Ctx} {o} (h : c.H N c1 o)
    (hb : ∀ b ∈ ct.binds, b ∈ c1.binds ∨ c1.next ≤ b.2.id) : ct.Hidden o := by
  intro b hm
  rcases h with ⟨_, rfl⟩ | ⟨sl, rfl, _, h2, h3⟩
  · exact nofun
  · intro he
    cases he
    rcases hb b hm with h | h
    · exact h3 b h rfl
    · exact absurd h (Nat.not_le_of_lt h2)

/-- Slots of hypertags defined later are hidden. -/
theorem hidden_after {N : Prop} {c c' ct : Ctx} {o} (h : c.H N c' o) (w : ct.WF)
    (hn : ct.next ≤ c.next) : ct.Hidden o := by
  intro b hm
  rcases h with ⟨_, rfl⟩ | ⟨sl, rfl, h1, _⟩
  · exact nofun
  · intro he
    cases he
    exact absurd (Nat.lt_of_lt_of_le (w b hm).2 (Nat.le_trans hn h1)) (Nat.lt_irrefl _)

/-- What is known of a part. -/
structure PartOk (N : Prop) (src : Source P I) (c c' : Ctx) (ds : List (DefId × DefInfo P))
    (t : Stmt P) (ct : Ctx) : Prop where
  ok : ∃ t' ct', analyse src t ct = .ok (t', ct') ∧ ct'.next ≤ c'.next
  wf : ct.WF
  tails : t.tails (Raw N)
  binds : ∀ b ∈ ct.binds, b ∈ c.binds ∨ c.next ≤ b.2.id
  lo : c.next ≤ ct.next
  hi : ct.next ≤ c'.next
  defs : ∀ d ∈ ds, d.2.writes ct.Hidden

variable {src} {N : Prop}

/-- A part of a part, with the hypertags defined before, and later. -/
theorem PartOk.lift {c c1 c2 c3 c' : Ctx} {d1 d2 d3 ds : List (DefId × DefInfo P)} {t : Stmt P}
    {ct : Ctx} (h : PartOk N src c1 c2 d2 t ct) (h1 : c.Step c1)
    (hd1 : Defs N (fun _ => True) c c1 d1) (h3 : c2.next ≤ c3.next) (h3' : c3.next ≤ c'.next)
    (hd3 : Defs N (fun _ => True) c3 c' d3) (hds : ∀ d ∈ ds, d ∈ d1 ∨ d ∈ d2 ∨ d ∈ d3) :
    PartOk N src c c' ds t ct := by
  obtain ⟨t', ct', ha, hn⟩ := h.ok
  refine ⟨⟨t', ct', ha, Nat.le_trans hn (Nat.le_trans h3 h3')⟩, h.wf, h.tails, fun b hb => ?_,
    Nat.le_trans h1.next h.lo, Nat.le_trans h.hi (Nat.le_trans h3 h3'), fun d hd => ?_⟩
  · rcases h.binds b hb with h' | h'
    · rcases h1.mem h' with h' | h'
      · exact .inl h'
      · exact .inr h'.2.1
    · exact .inr (Nat.le_trans h1.next h')
  · rcases hds d hd with hd | hd | hd
    · exact DefInfo.writes_mono (fun o ho => hidden_before ho h.binds) (hd1 d hd).1
    · exact h.defs d hd
    · exact DefInfo.writes_mono (fun o ho => hidden_after ho h.wf (Nat.le_trans h.hi h3)) (hd3 d hd).1

private theorem yes : N → ∀ _ : Option Slot, True := fun _ _ => trivial

theorem Part.ok {s : Stmt P} {c : Ctx} {t : Stmt P} {ct : Ctx} (h : Part src s c t ct) :
    ∀ s' c', analyse src s c = .ok (s', c') → c.WF → s.tails (Raw N) →
      PartOk N src c c' s'.defs t ct := by
  induction h with
  | self s c =>
    intro s' c' ha w tl
    obtain ⟨h1, h2⟩ := analyse_post src found_any (yes (N := N)) s c w tl _ ha
    exact ⟨⟨s', c', ha, Nat.le_refl _⟩, w, tl, fun b hb => .inl hb, Nat.le_refl _, h1.next,
      fun d hd => DefInfo.writes_mono (fun o ho => hidden_after ho w (Nat.le_refl _)) (h2.2.2 d hd).1⟩
  | @xblock m mo b c t ct hp ih =>
    intro s' c' ha w tl
    simp only [analyse] at ha
    simp only [Stmt.tails] at tl
    obtain ⟨⟨b', c1⟩, h1, ha⟩ := ok_bind ha
    cases ha
    obtain ⟨e1, e2, e3, e4, e5⟩ := leaveProlog_eq b c
    have w' : (leaveProlog b c).WF := by intro x hx; rw [e1] at hx; rw [e2, e5]; exact w x hx
    have h := ih _ _ h1 w' tl
    exact ⟨h.ok, h.wf, h.tails, by rw [← e1, ← e5]; exact h.binds, by rw [← e5]; exact h.lo, h.hi,
      by simp only [Stmt.defs]; exact h.defs⟩
  | @struct tags b c t ct hp ih =>
    intro s' c' ha w tl
    simp only [analyse] at ha
    simp only [Stmt.tails] at tl
    obtain ⟨tags', _, ha⟩ := ok_bind ha
    obtain ⟨⟨b', c1⟩, h1, ha⟩ := ok_bind ha
    cases ha
    have w' : Ctx.WF { c with regular := c.regular + 1 } := fun x hx =>
      ⟨Nat.le_succ_of_le (w x hx).1, (w x hx).2⟩
    have h := ih _ _ h1 w' tl
    exact ⟨h.ok, h.wf, h.tails, h.binds, h.lo, h.hi, by simp only [Stmt.defs]; exact h.defs⟩
  | @branch pre b post pre' c1 c t ct hpre hp ih =>
    intro s' c' ha w tl
    simp only [analyse] at ha
    simp only [Stmt.tails, tailsAll_iff] at tl
    obtain ⟨⟨r, c3⟩, h1, ha⟩ := ok_bind ha
    cases ha
    obtain ⟨b', c2, post', e1, e2, rfl⟩ := analyseBranches_split src hpre h1
    obtain ⟨p1, p2⟩ := analyseBranches_post src found_any (yes (N := N)) pre
      { c with control := c.control + 1 } w ((tailsAll_iff _).2 fun x hx => tl x (by simp [hx])) _ hpre
    have w1 := p1.wf w
    obtain ⟨q1, _⟩ := analyse_post src found_any (yes (N := N)) b c1 w1 (tl b (by simp)) _ e1
    obtain ⟨r1, r2⟩ := analyseBranches_post src found_any (yes (N := N)) post _
      ((Ctx.merge_step q1).wf w1) ((tailsAll_iff _).2 fun x hx => tl x (by simp [hx])) _ e2
    have h := (ih _ _ e1 w1 (tl b (by simp))).lift p1 p2.2.2
      (Nat.le_of_eq (Ctx.merge_next (c := c1)).symm) r1.next r2.2.2
      (ds := Stmt.defs (.tryBlock (pre' ++ b' :: post'))) (by
        intro d hd
        simp only [Stmt.defs, Stmt.mem_defsAll, List.mem_append, List.mem_cons] at hd ⊢
        obtain ⟨x, hx | rfl | hx, hd⟩ := hd
        · exact .inl ⟨x, hx, hd⟩
        · exact .inr (.inl hd)
        · exact .inr (.inr ⟨x, hx, hd⟩))
    exact ⟨h.ok, h.wf, h.tails, h.binds, h.lo, h.hi, h.defs⟩
  | @clause pre e b post els pre' c1 c t ct hpre hp ih =>
    intro s' c' ha w tl
    simp only [analyse] at ha
    simp only [Stmt.tails, tailsClauses_iff] at tl
    obtain ⟨⟨r, c3⟩, h1, ha⟩ := ok_bind ha
    obtain ⟨⟨els', c4⟩, h2, ha⟩ := ok_bind ha
    cases ha
    obtain ⟨⟨e', b''⟩, c2, post', e1, e2, rfl⟩ := analyseClauses_split src hpre h1
    simp only [analyseClause] at e1
    obtain ⟨_, _, f1⟩ := ok_bind e1
    obtain ⟨⟨b1, cb⟩, f2, f1⟩ := ok_bind f1
    cases f1
    simp only [analyseOpt] at f2
    obtain ⟨⟨b', cb⟩, f3, f2⟩ := ok_bind f2
    cases f2
    clear e1
    have e1 := f3
    have tb : b.tails (Raw N) := by
      have := tl.1 (e, some b) (by simp)
      simpa only [Stmt.tailsClause, Stmt.tailsOpt] using this
    obtain ⟨p1, p2⟩ := analyseClauses_post src found_any (yes (N := N)) pre
      { c with control := c.control + 1 } w
      ((tailsClauses_iff _).2 fun x hx => tl.1 x (by simp [hx])) _ hpre
    have w1 := p1.wf w
    obtain ⟨q1, _⟩ := analyse_post src found_any (yes (N := N)) b c1 w1 tb _ e1
    have wm := (Ctx.merge_step q1).wf w1
    obtain ⟨r1, r2⟩ := analyseClauses_post src found_any (yes (N := N)) post _ wm
      ((tailsClauses_iff _).2 fun x hx => tl.1 x (by simp [hx])) _ e2
    obtain ⟨u1, u2⟩ := analyseElse_post src found_any (yes (N := N)) els _ (r1.wf wm) tl.2 _ h2
    have h := (ih _ _ e1 w1 tb).lift p1 p2.2.2
      (Nat.le_of_eq (Ctx.merge_next (c := c1)).symm) (r1.trans u1).next
      ((r2.2.2.mono (fun o => .right u1)).append (u2.2.2.mono (fun o => .left r1.next)))
      (ds := Stmt.defs (.ifBlock (pre' ++ (e', some b') :: post') els')) (by
        intro d hd
        simp only [Stmt.defs, mem_defsClauses, List.mem_append, List.mem_cons] at hd ⊢
        rcases hd with ⟨x, hx | rfl | hx, hd⟩ | hd
        · exact .inl ⟨x, hx, hd⟩
        · exact .inr (.inl (by simpa only [Stmt.defsClause, Stmt.defsOpt] using hd))
        · exact .inr (.inr (.inl ⟨x, hx, hd⟩))
        · exact .inr (.inr (.inr hd)))
    exact ⟨h.ok, h.wf, h.tails, h.binds, h.lo, h.hi, h.defs⟩
  | @ifElse cs els cs' c1 c t ct hpre hp ih =>
    intro s' c' ha w tl
    simp only [analyse] at ha
    simp only [Stmt.tails, Stmt.tailsOpt] at tl
    obtain ⟨⟨r, c3⟩, h1, ha⟩ := ok_bind ha
    obtain ⟨⟨els', c4⟩, h2, ha⟩ := ok_bind ha
    cases ha
    rw [hpre] at h1
    cases h1
    simp only [analyseElse] at h2
    obtain ⟨⟨e', c2⟩, e1, h2⟩ := ok_bind h2
    cases h2
    obtain ⟨p1, p2⟩ := analyseClauses_post src found_any (yes (N := N)) cs
      { c with control := c.control + 1 } w tl.1 _ hpre
    have h := (ih _ _ e1 (p1.wf w) tl.2).lift p1 p2.2.2 (c3 := c1.mergeBranch c2)
      (c' := c1.mergeBranch c2) (d3 := [])
      (Nat.le_of_eq (Ctx.merge_next (c := c1)).symm) (Nat.le_refl _) .nil
      (ds := Stmt.defs (.ifBlock cs' (some e'))) (by
        intro d hd
        simp only [Stmt.defs, Stmt.defsOpt, List.mem_append] at hd ⊢
        exact hd.imp_right .inl)
    exact ⟨h.ok, h.wf, h.tails, h.binds, h.lo, h.hi, h.defs⟩
  | @elseClause b c t ct hp ih =>
    intro s' c' ha w tl
    simp only [analyse, analyseOpt] at ha
    simp only [Stmt.tails, Stmt.tailsOpt] at tl
    obtain ⟨⟨o, c1⟩, h1, ha⟩ := ok_bind ha
    cases ha
    obtain ⟨⟨b', c1⟩, h2, ha⟩ := ok_bind h1
    cases ha
    have h := ih _ _ h2 w tl
    exact ⟨h.ok, h.wf, h.tails, h.binds, h.lo, h.hi,
      by simp only [Stmt.defs, Stmt.defsOpt]; exact h.defs⟩
  | @whileBody e b els c t ct hp ih =>
    intro s' c' ha w tl
    simp only [analyse, analyseOpt] at ha
    simp only [Stmt.tails, Stmt.tailsOpt] at tl
    obtain ⟨_, _, ha⟩ := ok_bind ha
    obtain ⟨⟨o, c1⟩, h0, ha⟩ := ok_bind ha
    obtain ⟨⟨b', _⟩, h1, h2⟩ := ok_bind h0
    cases h2
    obtain ⟨⟨els', c2⟩, h2, ha⟩ := ok_bind ha
    cases ha
    obtain ⟨q1, _⟩ := analyse_post src found_any (yes (N := N)) b
      { c with control := c.control + 1 } w tl.1 _ h1
    obtain ⟨u1, u2⟩ := analyseElse_post src found_any (yes (N := N)) els _
      ((Ctx.merge_step q1).wf w) tl.2 _ h2
    have h := (ih _ _ h1 w tl.1).lift (.refl _) (d1 := []) .nil
      (Nat.le_of_eq (Ctx.merge_next (c := { c with control := c.control + 1 })).symm) u1.next u2.2.2
      (ds := Stmt.defs (.whileBlock e (some b') els')) (by
        intro d hd
        simp only [Stmt.defs, Stmt.defsOpt, List.mem_append] at hd ⊢
        exact .inr hd)
    exact ⟨h.ok, h.wf, h.tails, h.binds, h.lo, h.hi, h.defs⟩
  | @whileElse e b els b' c1 c t ct hpre hp ih =>
    intro s' c' ha w tl
    simp only [analyse, analyseElse] at ha
    simp only [Stmt.tails, Stmt.tailsOpt] at tl
    obtain ⟨_, _, ha⟩ := ok_bind ha
    obtain ⟨⟨o, c2⟩, h1, ha⟩ := ok_bind ha
    rw [hpre] at h1
    cases h1
    obtain ⟨⟨els', c2⟩, h2, ha⟩ := ok_bind ha
    cases ha
    obtain ⟨⟨e', c2⟩, e1, h2⟩ := ok_bind h2
    cases h2
    obtain ⟨p1, p2⟩ := analyseOpt_post src found_any (yes (N := N)) b
      { c with control := c.control + 1 } w tl.1 _ hpre
    have hm := Ctx.merge_step p1
    have h := (ih _ _ e1 (hm.wf w) tl.2).lift hm
      (p2.2.2.mono (fun o => .sub (Nat.le_of_eq Ctx.merge_next.symm) (Ctx.merge_sub p1)))
      (c3 := Ctx.mergeBranch (Ctx.mergeBranch { c with control := c.control + 1 } c1) c2)
      (c' := Ctx.mergeBranch (Ctx.mergeBranch { c with control := c.control + 1 } c1) c2) (d3 := [])
      (Nat.le_of_eq (Ctx.merge_next).symm) (Nat.le_refl _) .nil
      (ds := Stmt.defs (.whileBlock e b' (some e'))) (by
        intro d hd
        simp only [Stmt.defs, Stmt.defsOpt, List.mem_append] at hd ⊢
        exact hd.imp_right .inl)
    exact ⟨h.ok, h.wf, h.tails, h.binds, h.lo, h.hi, h.defs⟩
  | @forBody tg e b rest tg' c1 c t ct hpre hp ih =>
    intro s' c' ha w tl
    simp only [analyse, analyseFirst] at ha
    simp only [Stmt.tails, Stmt.tailsFirst] at tl
    obtain ⟨_, _, ha⟩ := ok_bind ha
    obtain ⟨⟨_, c2⟩, h1, ha⟩ := ok_bind ha
    rw [hpre] at h1
    cases h1
    obtain ⟨⟨r, c2⟩, h0, ha⟩ := ok_bind ha
    cases ha
    obtain ⟨⟨b', c3⟩, h1, h2⟩ := ok_bind h0
    cases h2
    obtain ⟨p1, _⟩ := (analyseTarget_judge (N := N) found_any tg { c with control := c.control + 1 } _
      (sameNames_self c)).post _ hpre
    have h := (ih _ _ h1 (p1.wf w) tl.1).lift p1 (d1 := []) .nil (Nat.le_refl _) (Nat.le_refl _)
      (raw_all found_any (yes (N := N)) tl.2 c3 c3).2.2
      (ds := Stmt.defs (.forBlock tg' e (b' :: rest))) (by
        intro d hd
        simp only [Stmt.defs, Stmt.defsAll, List.mem_append] at hd ⊢
        exact .inr hd)
    exact ⟨h.ok, h.wf, h.tails, h.binds, h.lo, h.hi, h.defs⟩
  | @child pre s post pre' c1 c t ct hpre hp ih =>
    intro s' c' ha w tl
    simp only [analyse] at ha
    simp only [Stmt.tails, tailsAll_iff] at tl
    obtain ⟨⟨r, c3⟩, h1, ha⟩ := ok_bind ha
    cases ha
    obtain ⟨b', c2, post', e1, e2, rfl⟩ := analyseAll_split src hpre h1
    obtain ⟨p1, p2⟩ := analyseAll_post src found_any (yes (N := N)) pre c w
      ((tailsAll_iff _).2 fun x hx => tl x (by simp [hx])) _ hpre
    have w1 := p1.wf w
    obtain ⟨q1, _⟩ := analyse_post src found_any (yes (N := N)) s c1 w1 (tl s (by simp)) _ e1
    obtain ⟨r1, r2⟩ := analyseAll_post src found_any (yes (N := N)) post c2
      (q1.wf w1) ((tailsAll_iff _).2 fun x hx => tl x (by simp [hx])) _ e2
    exact (ih _ _ e1 w1 (tl s (by simp))).lift p1 p2.2.2 (Nat.le_refl _) r1.next r2.2.2
      (ds := Stmt.defs (.body (pre' ++ b' :: post'))) (by
        intro d hd
        simp only [Stmt.defs, Stmt.mem_defsAll, List.mem_append, List.mem_cons] at hd ⊢
        obtain ⟨x, hx | rfl | hx, hd⟩ := hd
        · exact .inl ⟨x, hx, hd⟩
        · exact .inr (.inl hd)
        · exact .inr (.inr ⟨x, hx, hd⟩))

end
end Verif
