import Verif.Lemmas.FitSetup

/-! From derivations to well-made scripts. -/

namespace Verif
open Py Spec

mutual
/-- No reference to an unused symbol, except in look-aheads. -/
def cleanPeg : Peg NT → Bool
  | .lit _ => true
  | .rx _ => true
  | .ref n => !isUnused n
  | .seq ps => cleanPegs ps
  | .alt ps => cleanPegs ps
  | .opt p => cleanPeg p
  | .star p => cleanPeg p
  | .plus p => cleanPeg p
  | .not _ => true
def cleanPegs : List (Peg NT) → Bool
  | [] => true
  | p :: ps => cleanPeg p && cleanPegs ps
end

/-- Neither a terminal nor another name. -/
def isInner : Peg NT → Bool
  | .lit _ => false
  | .rx _ => false
  | .ref _ => false
  | _ => true

def isRef : Peg NT → Bool
  | .ref _ => true
  | _ => false

section
variable {P : Type} {M : Marks} {U : Uni}

theorem rule_clean (n : NT) : cleanPeg (rule M U n) = true := by cases n <;> rfl
theorem rule_inner {n : NT} (h : isReduced n = true) : isInner (rule M U n) = true := by
  cases n <;> first | rfl | exact absurd h (by decide)
theorem rule_noRef (n : NT) : isRef (rule M U n) = false := by cases n <;> rfl

theorem cleanPegs_mem {ps : List (Peg NT)} {p : Peg NT} (h : cleanPegs ps = true) (hp : p ∈ ps) : cleanPeg p = true := by
  induction ps with
  | nil => cases hp
  | cons q qs ih =>
    simp only [cleanPegs, Bool.and_eq_true] at h
    rcases List.mem_cons.1 hp with rfl | hp
    · exact h.1
    · exact ih h.2 hp

theorem Derives.anon {G : NT → Peg NT} {p : Peg NT} {t : PTree NT} (h : Derives G p t) (hp : isRef p = false) :
    ∃ w cs, t = .node .none w cs := by
  cases h <;> first | exact ⟨_, _, rfl⟩ | cases hp

theorem Derives.childless {G : NT → Peg NT} {p : Peg NT} {w : Str} (h : Derives G p (.node .none w [])) (hp : isInner p = true) :
    w = [] := by
  generalize ht : (PTree.node .none w [] : PTree NT) = t at h
  cases h <;> simp [isInner] at hp <;> cases ht <;> rfl

theorem buildAll_good {names : Str → Option Char} {full : Str} {Q Q' : List (Built P) → Prop} {as bs : List RTree}
    (h : Good Q (buildAll names full as)) (h' : Good Q' (buildAll names full bs)) :
    Good (fun cs => ∃ xs ys, cs = xs ++ ys ∧ Q xs ∧ Q' ys) (buildAll names full (as ++ bs)) := by
  induction as generalizing Q with
  | nil =>
    have h : Q [] := h
    exact h'.mono fun ys hy => ⟨[], ys, rfl, h, hy⟩
  | cons a as ih =>
    simp only [buildAll, List.cons_append] at h ⊢
    cases hb : build (P := P) names full a with
    | error e => rw [hb] at h; exact h
    | ok b =>
      simp only [hb] at h ⊢
      have ih := ih (Q := fun xs => Q (b :: xs)) (by
        cases hx : buildAll (P := P) names full as with
        | error e => simp only [hx] at h; exact h
        | ok xs => simp only [hx] at h; exact h)
      cases hx : buildAll (P := P) names full (as ++ bs) with
      | error e => simp only [hx] at ih ⊢; exact ih
      | ok xs =>
        simp only [hx] at ih ⊢
        obtain ⟨xs', ys, rfl, h1, h2⟩ := ih
        exact ⟨b :: xs', ys, rfl, h1, h2⟩

theorem compact_kind {n : NT} (hn : isCompact n = true) {k : Kind} (h : Gen produces (rule M U n) [k]) : produces n [k] := by
  cases n <;> first | (exact absurd hn (by decide)) | skip
  all_goals simp [rule, produces, kindOf, or_and_right, exists_or] at h
  all_goals simp only [produces, kindOf]
  case arith_expr => simp [h.2]
  case not_test =>
    obtain ⟨bs, -, e⟩ := h
    cases bs with
    | nil => simpa using e
    | cons b bs => simp at e
  all_goals simp_all

theorem produces_node {n : NT} (hi : isIgnored n = false) (hr : isReduced n = false) : produces n [kindOf n] := by
  cases n <;> first | (exact absurd hi (by decide)) | (exact absurd hr (by decide)) | simp [produces, kindOf]

theorem Good.here {α : Type} {Q : α → Prop} {r : Except SetupErr α} (h : Good Q r) : Good (fun a => Q a ∧ r = .ok a) r := by
  cases r with
  | ok a => exact ⟨h, rfl⟩
  | error e => exact h

theorem rewrite_named (n : NT) (start : Nat) (w : Str) (cs : List (PTree NT)) (h : isReduced n = true → cs = [] → w = []) :
    rewrite start (.node (some n) w cs) =
      if isIgnored n then [] else if isReduced n then rewrites start cs else [compactNode n start w (rewrites start cs)] := by
  unfold rewrite
  split
  · rfl
  · split
    · rename_i hr
      cases cs with
      | nil => simp [h hr rfl, rewrites]
      | cons c cs => simp [rewrites]
    · rfl

theorem buildAll_length {names : Str → Option Char} {full : Str} {as : List RTree} {bs : List (Built P)}
    (h : buildAll names full as = .ok bs) : bs.length = as.length := by
  induction as generalizing bs with
  | nil => cases h; rfl
  | cons a as ih =>
    simp only [buildAll] at h
    split at h
    · split at h
      · rename_i hb; cases h; simp [ih hb]
      · cases h
    · cases h

mutual
theorem Derives.fit [MarksApart M U] {names : Str → Option Char} {full : Str} : ∀ {p : Peg NT} {t : PTree NT},
    Derives (rule M U) p t → cleanPeg p = true → ∀ start : Nat,
    Good (fun bs : List (Built P) => ∃ ks, Gen produces p ks ∧ FitAll M U ks bs) (buildAll names full (rewrite start t))
  | _, _, .lit l, _, _ => ⟨[], by simp, .nil⟩
  | _, _, .rx _, _, _ => ⟨[], by simp, .nil⟩
  | _, _, .none, _, _ => ⟨[], by simp, .nil⟩
  | _, _, .not, _, _ => ⟨[], by simp, .nil⟩
  | _, _, .seq h, hc, start => by
    simp only [rewrite]
    exact (DerivesSeq.fit h hc start).mono fun bs ⟨ks, h1, h2⟩ => ⟨ks, gen_seq.2 h1, h2⟩
  | _, _, .star h, hc, start => by
    simp only [rewrite]
    exact (DerivesStar.fit h hc start).mono fun bs ⟨ks, h1, h2⟩ => ⟨ks, gen_star.2 h1, h2⟩
  | _, _, .alt hp h, hc, start => by
    simp only [rewrite, rewrites, List.append_nil]
    exact (Derives.fit h (cleanPegs_mem hc hp) start).mono fun bs ⟨ks, h1, h2⟩ => ⟨ks, gen_alt.2 ⟨_, hp, h1⟩, h2⟩
  | _, _, .some h, hc, start => by
    simp only [rewrite, rewrites, List.append_nil]
    exact (Derives.fit h hc start).mono fun bs ⟨ks, h1, h2⟩ => ⟨ks, gen_opt.2 (.inr h1), h2⟩
  | _, _, .plus (c := c) h h', hc, start => by
    simp only [rewrite, rewrites]
    refine (buildAll_good (Derives.fit h hc start) (DerivesStar.fit h' hc (start + c.text.length))).mono ?_
    rintro bs ⟨xs, ys, rfl, ⟨ks, h1, h2⟩, ⟨ks', h3, h4⟩⟩
    exact ⟨ks ++ ks', gen_plus.2 ⟨ks, h1, ks', h3, rfl⟩, h2.append h4⟩
  | _, _, .ref (n := n) (t := t) h, hc, start => by
    have ih := Derives.fit (names := names) (full := full) h (rule_clean n) start
    obtain ⟨w, cs, rfl⟩ := h.anon (rule_noRef n)
    rw [PTree.rename, rewrite_named n start w cs (fun hr hcs => by subst hcs; exact h.childless (rule_inner hr))]
    simp only [rewrite] at ih
    by_cases hi : isIgnored n = true
    · rw [if_pos hi]
      refine ⟨[], gen_ref.2 ?_, .nil⟩
      cases n <;> first | rfl | exact absurd hi (by decide)
    rw [if_neg hi]
    by_cases hr : isReduced n = true
    · rw [if_pos hr]
      exact ih.mono fun bs ⟨ks, h1, h2⟩ => ⟨ks, gen_ref.2 (produces_reduced hr h1), h2⟩
    rw [if_neg hr]
    have hu : isUnused n = false := by simpa [cleanPeg] using hc
    have ht := words_textOk h.words
    simp only [PTree.text] at ht
    by_cases hk : isCompact n = true ∧ ∃ c, rewrites start cs = [c]
    · obtain ⟨hk, c, hcs⟩ := hk
      rw [hcs] at ih ⊢
      simp only [compactNode, hk, if_true]
      refine ih.here.mono fun bs ⟨⟨ks, h1, h2⟩, hb⟩ => ?_
      have hl := h2.length
      rw [buildAll_length hb] at hl
      match ks, hl with
      | [k], _ => exact ⟨[k], gen_ref.2 (compact_kind hk h1), h2⟩
    · have hn : compactNode n start w (rewrites start cs) = .node n start w (rewrites start cs) := by
        unfold compactNode
        split
        · rename_i hk'
          split
          · rename_i c hcs
            exact absurd ⟨hk', c, hcs⟩ hk
          · rfl
        · rfl
      rw [hn]
      have hg : Good (fun b : Built P => ∃ k, produces n [k] ∧ Fit M U k b)
          (build names full (.node n start w (rewrites start cs))) := by
        unfold build
        cases hb : buildAll (P := P) names full (rewrites start cs) with
        | error e => rw [hb] at ih; exact ih
        | ok bs =>
          simp only [hb] at ih ⊢
          obtain ⟨ks, h1, h2⟩ := ih
          refine (setup_fit (by simpa using hi) (by simpa using hr) hu h1 ?_ (attachQuals_fit h2) ht start).mono
            fun b hb => ⟨_, produces_node (by simpa using hi) (by simpa using hr), hb⟩
          intro hc hl
          have := h2.length
          rw [hl, buildAll_length hb] at this
          match hcs : rewrites start cs, this with
          | [c], _ => exact hk ⟨hc, c, hcs⟩
      simp only [buildAll]
      cases hb : build (P := P) names full (.node n start w (rewrites start cs)) with
      | error e => rw [hb] at hg; exact hg
      | ok b =>
        rw [hb] at hg
        obtain ⟨k, h1, h2⟩ := hg
        exact ⟨[k], gen_ref.2 h1, .cons h2 .nil⟩
theorem DerivesSeq.fit [MarksApart M U] {names : Str → Option Char} {full : Str} : ∀ {ps : List (Peg NT)} {ts : List (PTree NT)},
    DerivesSeq (rule M U) ps ts → cleanPegs ps = true → ∀ start : Nat,
    Good (fun bs : List (Built P) => ∃ ks, GenSeq produces ps ks ∧ FitAll M U ks bs) (buildAll names full (rewrites start ts))
  | _, _, .nil, _, _ => ⟨[], by simp, .nil⟩
  | _, _, .cons (c := c) h h', hc, start => by
    simp only [rewrites]
    simp only [cleanPegs, Bool.and_eq_true] at hc
    refine (buildAll_good (Derives.fit h hc.1 start) (DerivesSeq.fit h' hc.2 (start + c.text.length))).mono ?_
    rintro bs ⟨xs, ys, rfl, ⟨ks, h1, h2⟩, ⟨ks', h3, h4⟩⟩
    exact ⟨ks ++ ks', genSeq_cons.2 ⟨ks, h1, ks', h3, rfl⟩, h2.append h4⟩
theorem DerivesStar.fit [MarksApart M U] {names : Str → Option Char} {full : Str} : ∀ {p : Peg NT} {ts : List (PTree NT)},
    DerivesStar (rule M U) p ts → cleanPeg p = true → ∀ start : Nat,
    Good (fun bs : List (Built P) => ∃ ks, GenStar produces p ks ∧ FitAll M U ks bs) (buildAll names full (rewrites start ts))
  | _, _, .nil, _, _ => ⟨[], .nil, .nil⟩
  | _, _, .cons (c := c) h h', hc, start => by
    simp only [rewrites]
    refine (buildAll_good (Derives.fit h hc start) (DerivesStar.fit h' hc (start + c.text.length))).mono ?_
    rintro bs ⟨xs, ys, rfl, ⟨ks, h1, h2⟩, ⟨ks', h3, h4⟩⟩
    exact ⟨ks ++ ks', .cons h1 h3, h2.append h4⟩
end

theorem parse_derives {text : Str} {t : PTree NT} (h : parse M U text = .ok t) : Derives (rule M U) (.ref .document) t := by
  unfold parse at h
  split at h
  · rename_i hr
    cases h
    exact (run_derives _).1 _ _ _ _ hr
  all_goals cases h

theorem load_fit [MarksApart M U] {names : Str → Option Char} {script : Str} :
    (∀ ss : List (Stmt P), loadScript M U names script = .ok ss → Stmt.MadeDocument M U ss) ∧
    loadScript (P := P) M U names script ≠ .error (.setup .malformed) := by
  unfold loadScript
  cases preprocess M script with
  | error e => exact ⟨by simp, by simp⟩
  | ok flat =>
    simp only
    cases hp : parse M U flat with
    | error e => exact ⟨by simp, by simp⟩
    | ok t =>
      simp only
      have h := (parse_derives hp).fit (P := P) (names := names) (full := flat) rfl 0
      cases hb : buildAll (P := P) names flat (rewrite 0 t) with
      | error e =>
        rw [hb] at h
        refine ⟨by simp, ?_⟩
        intro he
        cases he
        exact h rfl
      | ok bs =>
        rw [hb] at h
        obtain ⟨ks, h1, h2⟩ := h
        simp only [gen_ref] at h1
        obtain rfl : ks = [.document] := h1
        simp only [all₂_cons, all₂_nil, fit_document] at h2
        obtain ⟨_, ⟨ss, rfl, hs⟩, _, rfl, rfl⟩ := h2
        exact ⟨fun ss' h => by cases h; exact hs, by simp⟩

end
end Verif
