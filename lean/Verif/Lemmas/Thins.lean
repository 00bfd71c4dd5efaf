import Verif.Lemmas.Lines
import Verif.Lemmas.Html
import Verif.Model.Translate

/-! Deletion of whitespace: what the layout of text blocks does to a text. -/

namespace Verif
open Py Spec

/-- `t` is `s` without some of its whitespace. -/
inductive Thins : Str → Str → Prop
  | nil : Thins [] []
  | keep (c : Char) {s t : Str} : Thins s t → Thins (c :: s) (c :: t)
  | drop {c : Char} {s t : Str} : isSpace c = true → Thins s t → Thins (c :: s) t

theorem Thins.refl : ∀ s : Str, Thins s s
  | [] => .nil
  | c :: s => .keep c (refl s)

theorem Thins.trans {a b c : Str} (h : Thins a b) (g : Thins b c) : Thins a c := by
  induction h generalizing c with
  | nil => exact g
  | keep x _ ih =>
    cases g with
    | keep _ g => exact .keep _ (ih g)
    | drop hx g => exact .drop hx (ih g)
  | drop hx _ ih => exact .drop hx (ih g)

theorem Thins.drops {s : Str} (k : Nat) (h : ∀ c ∈ s.take k, isSpace c = true) : Thins s (s.drop k) := by
  induction k generalizing s with
  | zero => exact .refl s
  | succ k ih =>
    cases s with
    | nil => exact .nil
    | cons c s =>
      exact .drop (h c (by simp)) (ih (fun d hd => h d (by simp [hd])))

theorem Thins.replaceAux {w : Str} (hw : ∀ c ∈ w, isSpace c = true) (s : Str) (k : Nat) (hk : ∀ c ∈ s.take k, isSpace c = true) :
    Thins s (replaceAux ('\n' :: w) ['\n'] k s) := by
  induction s generalizing k with
  | nil => cases k <;> exact .nil
  | cons c s ih =>
    cases k with
    | succ k =>
      rw [Py.replaceAux]
      exact .drop (hk c (by simp)) (ih k (fun d hd => hk d (by simp [hd])))
    | zero =>
      rw [Py.replaceAux]
      split
      · rename_i h
        simp only [List.isPrefixOf, Bool.and_eq_true, beq_iff_eq] at h
        obtain ⟨rfl, h⟩ := h
        obtain ⟨r, rfl⟩ := List.isPrefixOf_iff_prefix.1 h
        refine .keep _ (ih _ ?_)
        simpa using hw
      · exact .keep _ (ih 0 (by simp))

theorem Thins.delIndentBy {w : Str} (hw : ∀ c ∈ w, isSpace c = true) (s : Str) : Thins s (delIndentBy s w) := by
  unfold Verif.delIndentBy
  simp only
  split
  · rename_i h
    obtain ⟨r, rfl⟩ := List.isPrefixOf_iff_prefix.1 h
    refine Thins.trans (Thins.drops w.length (by simpa using hw)) (Thins.replaceAux hw _ 0 (by simp))
  · exact Thins.replaceAux hw _ 0 (by simp)

/-- The text is whitespace followed by a text: the first `k` characters of the latter are blanks as long as they are
no newlines. -/
theorem replaceAux_blanks (old : Str) (k : Nat) (s : Str) :
    ∃ t, replaceAux ('\n' :: old) ['\n'] 0 (List.replicate k ' ' ++ s) = List.replicate k ' ' ++ t := by
  induction k with
  | zero => exact ⟨_, rfl⟩
  | succ k ih =>
    obtain ⟨t, ht⟩ := ih
    refine ⟨t, ?_⟩
    simp only [List.replicate_succ, List.cons_append]
    rw [replaceAux, if_neg (by simp [List.isPrefixOf])]
    rw [ht]

theorem delIndentBy_blanks (w : Str) (k : Nat) (s : Str) (hk : w.length ≤ k) :
    ∃ t, delIndentBy (List.replicate k ' ' ++ s) w = List.replicate (k - w.length) ' ' ++ t := by
  unfold Verif.delIndentBy
  simp only
  split
  · have e : (List.replicate k ' ' ++ s).drop w.length = List.replicate (k - w.length) ' ' ++ s := by
      rw [List.drop_append_of_le_length (by simpa using hk)]
      simp
    rw [e]
    exact replaceAux_blanks _ _ _
  · obtain ⟨t, ht⟩ := replaceAux_blanks w k s
    refine ⟨List.replicate w.length ' ' ++ t, ?_⟩
    rw [replace, ht, ← List.append_assoc, List.replicate_append_replicate]
    congr 2
    omega

/-- A text block is laid out by deletion of whitespace. -/
theorem Thins.layoutText (lead : Nat) (s : Str) : Thins (List.replicate lead ' ' ++ s) (layoutText lead s) := by
  unfold Verif.layoutText
  simp only
  generalize hsub : (getIndent (List.replicate lead ' ' ++ s)).take (lead + 1) = sub
  have hw : ∀ c ∈ sub, isSpace c = true := by
    subst hsub
    exact fun c hc => (getIndent_spec _).1.1 c (List.mem_of_mem_take hc)
  have h1 := Thins.delIndentBy hw (List.replicate lead ' ' ++ s)
  split
  · rename_i hlt
    obtain ⟨t, ht⟩ := delIndentBy_blanks sub lead s (Nat.le_of_lt hlt)
    refine h1.trans (Thins.drops _ ?_)
    rw [ht]
    intro c hc
    have hsp : isSpace ' ' = true := by decide
    generalize lead - sub.length = j at hc
    have e : (List.replicate j ' ' ++ t).drop j = t := by simp
    rw [e] at hc
    split at hc
    · rename_i h
      cases t with
      | nil => simp at h
      | cons x t =>
        simp only [List.take_succ_cons, List.take_zero, List.cons.injEq, and_true] at h
        subst h
        rw [List.take_append] at hc
        simp only [List.length_replicate, List.take_replicate, List.mem_append, List.mem_replicate] at hc
        rcases hc with hc | hc
        · rw [hc.2]; exact hsp
        · have : j + 1 - j = 1 := by omega
          rw [this] at hc
          simp at hc
          rw [hc]; exact hsp
    · rw [List.take_append_of_le_length (by simp)] at hc
      simp only [List.take_replicate, List.mem_replicate] at hc
      rw [hc.2]; exact hsp
  · exact h1

/-! ### Safe texts -/

theorem SafeText.nil : SafeText [] := ⟨by simp, by simp, by simp⟩

theorem SafeText.append {a b : Str} (ha : SafeText a) (hb : SafeText b) : SafeText (a ++ b) := by
  refine ⟨by simp [ha.1, hb.1], by simp [ha.2.1, hb.2.1], fun pre post e => ?_⟩
  rcases List.append_eq_append_iff.1 e with ⟨c, h1, h2⟩ | ⟨c, h1, h2⟩
  · cases c with
    | nil => exact hb.2.2 [] post (by simpa using h2)
    | cons x c =>
      exact hb.2.2 (x :: c) post h2
  · cases c with
    | nil => exact hb.2.2 [] post (by simpa using h2.symm)
    | cons x c =>
      simp only [List.cons_append, List.cons.injEq] at h2
      obtain ⟨rfl, rfl⟩ := h2
      rcases ha.2.2 pre c h1 with h | h | h
      · exact .inl (h.trans (List.prefix_append _ _))
      · exact .inr (.inl (h.trans (List.prefix_append _ _)))
      · exact .inr (.inr (h.trans (List.prefix_append _ _)))

theorem SafeText.plain {s : Str} (h1 : '<' ∉ s) (h2 : '>' ∉ s) (h3 : '&' ∉ s) : SafeText s :=
  ⟨h1, h2, fun pre post e => absurd (e ▸ (by simp : '&' ∈ pre ++ '&' :: post)) h3⟩

theorem SafeText.blank {s : Str} (h : ∀ c ∈ s, isSpace c = true) : SafeText s :=
  SafeText.plain (fun m => absurd (h _ m) (by decide)) (fun m => absurd (h _ m) (by decide)) (fun m => absurd (h _ m) (by decide))

/-- An entity is not interrupted by whitespace. -/
theorem prefix_thins {e : Str} (he : ∀ c ∈ e, isSpace c = false) {s t : Str} (ht : Thins s t) (h : e <+: s) : e <+: t := by
  induction ht generalizing e with
  | nil => exact h
  | keep c _ ih =>
    cases e with
    | nil => simp
    | cons x e =>
      rw [List.cons_prefix_cons] at h ⊢
      exact ⟨h.1, ih (fun d hd => he d (by simp [hd])) h.2⟩
  | drop hc _ ih =>
    cases e with
    | nil => simp
    | cons x e =>
      rw [List.cons_prefix_cons] at h
      have := he x (by simp)
      rw [h.1, hc] at this
      cases this

theorem Thins.mem {s t : Str} (h : Thins s t) {c : Char} (hc : c ∈ t) : c ∈ s := by
  induction h with
  | nil => exact hc
  | keep x _ ih =>
    rcases List.mem_cons.1 hc with rfl | hc
    · simp
    · exact List.mem_cons_of_mem _ (ih hc)
  | drop _ _ ih => exact List.mem_cons_of_mem _ (ih hc)

theorem Thins.split {s t : Str} (h : Thins s t) {pre post : Str} {c : Char} (e : t = pre ++ c :: post) :
    ∃ pre' post', s = pre' ++ c :: post' ∧ Thins post' post := by
  induction h generalizing pre with
  | nil => simp at e
  | keep x h ih =>
    cases pre with
    | nil =>
      simp only [List.nil_append, List.cons.injEq] at e
      obtain ⟨rfl, rfl⟩ := e
      exact ⟨[], _, rfl, h⟩
    | cons y pre =>
      simp only [List.cons_append, List.cons.injEq] at e
      obtain ⟨p, q, rfl, hq⟩ := ih e.2
      exact ⟨x :: p, q, rfl, hq⟩
  | drop _ _ ih =>
    obtain ⟨p, q, rfl, hq⟩ := ih e
    exact ⟨_ :: p, q, rfl, hq⟩

theorem SafeText.thins {s t : Str} (h : SafeText s) (ht : Thins s t) : SafeText t := by
  refine ⟨fun m => h.1 (ht.mem m), fun m => h.2.1 (ht.mem m), fun pre post e => ?_⟩
  obtain ⟨p, q, e', hq⟩ := ht.split e
  rcases h.2.2 p q e' with h | h | h
  · exact .inl (prefix_thins (by decide) hq h)
  · exact .inr (.inl (prefix_thins (by decide) hq h))
  · exact .inr (.inr (prefix_thins (by decide) hq h))

theorem SafeText.layout (lead : Nat) {s : Str} (h : SafeText s) : SafeText (layoutText lead s) :=
  SafeText.thins (SafeText.append (SafeText.blank (fun c hc => by rw [(List.mem_replicate.1 hc).2]; decide)) h) (Thins.layoutText lead s)

end Verif
