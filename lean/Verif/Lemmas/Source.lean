import Verif.Spec.Source
import Verif.Lemmas.Preprocess

/-! Encoding of scripts with a given layout. -/

namespace Verif
open Py Spec

theorem change_longer {M : Marks} {cur e : Str} (h : cur <+: e) :
    change M e cur = dedentSymbols M (e.drop cur.length) := by
  unfold change
  split
  · rename_i h'
    have : e = cur := (h'.eq_of_length_le h.length_le)
    subst this
    simp [indentSymbols, dedentSymbols]
  · rfl

theorem change_append {M : Marks} {c cur inc : Str} (h : c <+: cur) :
    change M c (cur ++ inc) = change M c cur ++ indentSymbols M inc := by
  have h' : c <+: cur ++ inc := h.trans (List.prefix_append _ _)
  simp only [change, h, h', if_true]
  rw [List.drop_append_of_le_length h.length_le]
  simp [indentSymbols]

theorem lstrip_rstrip_of_strip {t : Str} (h : strip t = t) : rstrip t = t ∧ lstrip t = t := by
  have h1 : (lstrip (rstrip t)).length ≤ (rstrip t).length := by
    have := leading_append_lstrip (rstrip t)
    have := congrArg List.length this
    simp at this; omega
  obtain ⟨x, hx, _⟩ := rstrip_append t
  have h2 : t.length = (rstrip t).length + x.length := by
    conv_lhs => rw [hx]
    simp
  have h3 : (lstrip (rstrip t)).length = t.length := by
    have := congrArg List.length h
    simpa [strip] using this
  have hx0 : x = [] := by
    have : x.length = 0 := by omega
    exact List.length_eq_zero_iff.1 this
  have h4 : rstrip t = t := by
    conv_rhs => rw [hx, hx0]
    simp
  refine ⟨h4, ?_⟩
  have h' : lstrip (rstrip t) = t := h
  rwa [h4] at h'

theorem enc_blanks (M : Marks) (cur : Str) (m n k : Nat) (ls : List Str) :
    enc M cur m k (List.replicate n [] ++ ls) = enc M cur (m + n) (k + n) ls := by
  induction n generalizing m k with
  | zero => simp
  | succ n ih =>
    rw [List.replicate_succ, List.cons_append, enc]
    rw [if_pos (by rfl), ih]
    congr 1 <;> omega

theorem leading_indent {cur t : Str} (hc : ∀ c ∈ cur, c = ' ' ∨ c = '\t') (ht : TrimmedLine t) :
    rstrip (cur ++ t) = cur ++ t ∧ leading (cur ++ t) = cur ∧ lstrip (cur ++ t) = t := by
  obtain ⟨h1, h2⟩ := lstrip_rstrip_of_strip ht.trimmed
  have hsp : ∀ c ∈ cur, isSpace c = true := by
    intro c h
    rcases hc c h with rfl | rfl <;> rfl
  have hl : lstrip (cur ++ t) = t := by
    have : ∀ cur : Str, (∀ c ∈ cur, isSpace c = true) → lstrip (cur ++ t) = lstrip t := by
      intro cur h
      induction cur with
      | nil => rfl
      | cons a cur ih =>
        rw [List.cons_append]
        simp only [lstrip, List.dropWhile_cons, h a (by simp), if_true]
        exact ih (fun c hc => h c (by simp [hc]))
    rw [this cur hsp, h2]
  refine ⟨?_, ?_, hl⟩
  · -- the last character is that of `t`
    have hne := ht.nonempty
    unfold rstrip at h1 ⊢
    rw [List.reverse_append]
    cases hr : t.reverse with
    | nil => simp at hr; exact absurd hr hne
    | cons a r =>
      rw [hr] at h1
      have hta : t = r.reverse ++ [a] := by
        have := congrArg List.reverse hr
        simpa using this
      by_cases ha : isSpace a = true
      · exfalso
        simp only [List.dropWhile_cons, ha, if_true] at h1
        have := congrArg List.length h1
        have h5 : (r.dropWhile isSpace).length ≤ r.length := (List.dropWhile_suffix _).length_le
        simp [hta] at this
        omega
      · simp only [List.cons_append, List.dropWhile_cons, ha, Bool.false_eq_true, if_false]
        simp [hta]
  · have := leading_append_lstrip (cur ++ t)
    rw [hl] at this
    exact List.append_cancel_right this

/-- The indentation is made of spaces and tabs. -/
def Blank (cur : Str) : Prop := ∀ c ∈ cur, c = ' ' ∨ c = '\t'

/-- Add a text in front of a result. -/
def mapOk (p : Str) : Except PreErr Str → Except PreErr Str
  | .ok r => .ok (p ++ r)
  | .error e => .error e

theorem mapOk_mapOk (p q : Str) (r : Except PreErr Str) : mapOk p (mapOk q r) = mapOk (p ++ q) r := by
  cases r <;> simp [mapOk]

theorem indentSymbols_append (M : Marks) (a b : Str) :
    indentSymbols M (a ++ b) = indentSymbols M a ++ indentSymbols M b := by
  simp [indentSymbols]

theorem dedentSymbols_append (M : Marks) (a b : Str) :
    dedentSymbols M (a ++ b) = dedentSymbols M b ++ dedentSymbols M a := by
  simp [dedentSymbols]

/-- The brackets at the beginning of an item. -/
def Spec.Item.opening (M : Marks) : Item → Str
  | .line _ _ => []
  | .group inc _ => indentSymbols M inc

mutual
theorem enc_item (M : Marks) : ∀ (it : Item) (cur : Str), it.Ok → Blank cur →
    ∃ e body, cur <+: e ∧ (it.isGroup = false → e = cur) ∧ Blank e ∧
      it.flat M = it.opening M ++ body ++
        dedentSymbols M (e.drop cur.length) ∧
      ∀ c k ls, (cur <+: c ∨ c <+: cur) → (it.isGroup = true → c <+: cur) →
        enc M c 0 k (it.lines cur ++ ls) =
          mapOk (change M c cur ++
            it.opening M ++ body)
            (enc M e 0 (k + (it.lines cur).length) ls)
  | .line m t, cur, hok, hb => by
    simp only [Item.Ok] at hok
    refine ⟨cur, '\n' :: (List.replicate m '\n' ++ t), List.prefix_refl _, fun _ => rfl, hb, ?_, ?_⟩
    · simp [Item.flat, Item.opening, dedentSymbols]
    · intro c k ls h _
      obtain ⟨h1, h2, h3⟩ := leading_indent hb hok
      simp only [Item.lines, List.append_assoc]
      rw [enc_blanks, List.singleton_append, enc]
      have hne : ¬ lstrip (rstrip (cur ++ t)) = [] := by rw [h1, h3]; exact hok.nonempty
      rw [if_neg hne]
      simp only [h1, h2, h3]
      rw [if_pos h.symm]
      have hk : k + m + 1 = k + (List.replicate m ([] : Str) ++ [cur ++ t]).length := by simp; omega
      rw [hk]
      cases enc M cur 0 (k + (List.replicate m ([] : Str) ++ [cur ++ t]).length) ls with
      | error e => rfl
      | ok r => simp [mapOk, Item.opening]
  | .group inc items, cur, hok, hb => by
    simp only [Item.Ok] at hok
    obtain ⟨hi1, hi2, hi3, hi4⟩ := hok
    have hb' : Blank (cur ++ inc) := by
      intro c hc
      rcases List.mem_append.1 hc with h | h
      · exact hb c h
      · exact hi2 c h
    obtain ⟨e, body, h1, h2, h3, h4⟩ := enc_items M items (cur ++ inc) hi3 hi4 hb'
    have hpre : cur <+: e := (List.prefix_append _ _).trans h1
    refine ⟨e, body, hpre, by simp [Item.isGroup], h2, ?_, ?_⟩
    · simp only [Item.flat, Item.opening]
      rw [h3]
      have he : e.drop cur.length = inc ++ e.drop (cur ++ inc).length := by
        obtain ⟨s, rfl⟩ := h1
        simp
      rw [he, dedentSymbols_append]
      simp [indentSymbols, dedentSymbols]
    · intro c k ls _ h
      have hc : c <+: cur := h rfl
      simp only [Item.lines]
      rw [h4 c k ls (.inr (hc.trans (List.prefix_append _ _))) (fun _ => hc.trans (List.prefix_append _ _)),
        change_append hc]
      rfl
theorem enc_items (M : Marks) : ∀ (items : List Item) (cur : Str), items ≠ [] → ItemsOk items → Blank cur →
    ∃ e body, cur <+: e ∧ Blank e ∧
      itemsFlat M items = body ++ dedentSymbols M (e.drop cur.length) ∧
      ∀ c k ls, (cur <+: c ∨ c <+: cur) → (((items.head?.map Item.isGroup).getD false) = true → c <+: cur) →
        enc M c 0 k (itemLines cur items ++ ls) =
          mapOk (change M c cur ++ body) (enc M e 0 (k + (itemLines cur items).length) ls)
  | [], _, h, _, _ => absurd rfl h
  | [it], cur, _, hok, hb => by
    simp only [ItemsOk] at hok
    obtain ⟨e, body, h1, h2, h3, h4, h5⟩ := enc_item M it cur hok.1 hb
    refine ⟨e, it.opening M ++ body, h1, h3, ?_, ?_⟩
    · simp only [itemsFlat, List.append_nil]; exact h4
    · intro c k ls h h'
      simp only [itemLines, List.append_nil]
      rw [h5 c k ls h (by simpa using h')]
      simp only [List.append_assoc]
  | it :: jt :: rest, cur, _, hok, hb => by
    have hok' := hok
    rw [ItemsOk] at hok
    obtain ⟨e, body, h1, h2, h3, h4, h5⟩ := enc_item M it cur hok.1 hb
    obtain ⟨e', body', g1, g2, g3, g4⟩ := enc_items M (jt :: rest) cur (by simp) hok.2.1 hb
    refine ⟨e', it.opening M ++ body ++
      dedentSymbols M (e.drop cur.length) ++ body', g1, g2, ?_, ?_⟩
    · rw [itemsFlat, h4, g3]
      simp only [List.append_assoc]
    · intro c k ls h h'
      rw [itemLines, List.append_assoc, h5 c k _ h (by simpa using h')]
      have hj : jt.isGroup = true → e <+: cur := by
        intro hj
        cases hi : it.isGroup with
        | false => rw [h2 hi]; exact List.prefix_refl _
        | true =>
          have := hok.2.2 hi jt rfl
          rw [this] at hj
          cases hj
      rw [g4 e _ ls (.inl h1) (by simpa using hj), mapOk_mapOk, change_longer h1]
      simp only [List.append_assoc, itemLines, List.length_append, Nat.add_assoc]
end

theorem not_nl_itemLines : (∀ (it : Item) (cur : Str), it.Ok → Blank cur → ∀ l ∈ it.lines cur, '\n' ∉ l) := by
  intro it
  induction it using Item.rec (motive_2 := fun items => ∀ cur : Str, ItemsOk items → Blank cur →
    ∀ l ∈ itemLines cur items, '\n' ∉ l) with
  | line m t =>
    intro cur hok hb l hl
    simp only [Item.lines, List.mem_append, List.mem_replicate, List.mem_singleton] at hl
    rcases hl with ⟨_, rfl⟩ | rfl
    · simp
    · simp only [List.mem_append, not_or]
      refine ⟨fun h => ?_, hok.oneLine⟩
      rcases hb _ h with h | h <;> cases h
  | group inc items ih =>
    intro cur hok hb l hl
    simp only [Item.Ok] at hok
    refine ih (cur ++ inc) hok.2.2.2 ?_ l (by simpa [Item.lines] using hl)
    intro c hc
    rcases List.mem_append.1 hc with h | h
    · exact hb c h
    · exact hok.2.1 c h
  | nil => simp_all [itemLines]
  | cons it items ih1 ih2 =>
    rename_i cur hok hb l hl
    simp only [ItemsOk] at hok
    simp only [itemLines, List.mem_append] at hl
    rcases hl with hl | hl
    · exact ih1 cur hok.1 hb l hl
    · exact ih2 cur hok.2.1 hb l hl

theorem itemLines_ne : (∀ (it : Item) (cur : Str), it.Ok → it.lines cur ≠ []) := by
  intro it
  induction it using Item.rec (motive_2 := fun items => ∀ cur : Str, ItemsOk items → items ≠ [] →
    itemLines cur items ≠ []) with
  | line m t => intro cur _; simp [Item.lines]
  | group inc items ih =>
    intro cur hok
    simp only [Item.Ok] at hok
    simpa [Item.lines] using ih (cur ++ inc) hok.2.2.2 hok.2.2.1
  | nil => simp_all
  | cons it items ih1 ih2 =>
    rename_i cur hok _
    simp only [ItemsOk] at hok
    simp only [itemLines, ne_eq, List.append_eq_nil_iff, not_and]
    exact fun h => absurd h (ih1 cur hok.1)

/-- The text of a script with a given layout is encoded as expected. -/
theorem preprocess_items (M : Marks) (items : List Item) (hne : items ≠ []) (hok : ItemsOk items) :
    preprocess M (itemText items) = .ok (itemsFlat M items) := by
  have hb : Blank [] := by intro c hc; cases hc
  have hlines : Spec.lines (itemText items) = itemLines [] items := by
    refine lines_unique _ _ ?_ ?_ rfl
    · cases items with
      | nil => exact absurd rfl hne
      | cons it is =>
        simp only [ItemsOk] at hok
        simp only [itemLines, ne_eq, List.append_eq_nil_iff, not_and]
        exact fun h => absurd h (itemLines_ne it [] hok.1)
    · have : ∀ items : List Item, ItemsOk items → ∀ l ∈ itemLines [] items, '\n' ∉ l := by
        intro items
        induction items with
        | nil => intro _ l hl; simp [itemLines] at hl
        | cons it is ih =>
          intro hok l hl
          simp only [ItemsOk] at hok
          simp only [itemLines, List.mem_append] at hl
          rcases hl with hl | hl
          · exact not_nl_itemLines it [] hok.1 hb l hl
          · exact ih hok.2.1 l hl
      exact this items hok
  rw [preprocess_eq_enc, hlines]
  obtain ⟨e, body, h1, h2, h3, h4⟩ := enc_items M items [] hne hok hb
  have := h4 [] 0 [] (.inl (List.prefix_refl _)) (fun _ => List.prefix_refl _)
  rw [List.append_nil] at this
  rw [this, h3]
  simp [enc, mapOk, change, indentSymbols]

end Verif
