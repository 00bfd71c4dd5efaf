import Verif.Model.Translate
import Verif.Lemmas.Lines

/-! Property C61: layout of text blocks. -/

namespace Verif
open Py Spec

/-- Lines of a text that is prefixed with something without newlines. -/
theorem lines_append_left {w body head : Str} {tail : List Str} (hw : '\n' ∉ w)
    (hb : lines body = head :: tail) : lines (w ++ body) = (w ++ head) :: tail := by
  have hj : join ['\n'] (head :: tail) = body := by
    have := join_split '\n' body
    unfold lines at hb
    rwa [hb] at this
  refine lines_unique _ _ (by simp) ?_ ?_
  · intro l hl
    rcases List.mem_cons.1 hl with rfl | hl
    · have := not_mem_lines (s := body) (l := head) (by simp [hb])
      simp [hw, this]
    · exact not_mem_lines (s := body) (by rw [hb]; exact List.mem_cons_of_mem _ hl)
  · rw [← hj]
    cases tail with
    | nil => simp [join]
    | cons t ts => simp [join]

/-- Lines of a text whose first line is shortened from the left. -/
theorem lines_drop {s head : Str} {tail : List Str} {k : Nat} (hs : lines s = head :: tail)
    (hk : k ≤ head.length) : lines (s.drop k) = head.drop k :: tail := by
  have hj : join ['\n'] (head :: tail) = s := by
    have := join_split '\n' s
    unfold lines at hs
    rwa [hs] at this
  refine lines_unique _ _ (by simp) ?_ ?_
  · intro l hl
    rcases List.mem_cons.1 hl with rfl | hl
    · intro h
      exact not_mem_lines (s := s) (l := head) (by simp [hs]) (List.mem_of_mem_drop h)
    · exact not_mem_lines (s := s) (by rw [hs]; exact List.mem_cons_of_mem _ hl)
  · rw [← hj]
    cases tail with
    | nil => simp [join]
    | cons t ts => simp [join, List.drop_append_of_le_length hk]

/-- First character of a text and of its first line. -/
theorem take_one_space {s head : Str} {tail : List Str} (hs : lines s = head :: tail) :
    s.take 1 = [' '] ↔ ∃ r, head = ' ' :: r := by
  have hj : join ['\n'] (head :: tail) = s := by
    have := join_split '\n' s
    unfold lines at hs
    rwa [hs] at this
  rw [← hj]
  cases head with
  | nil => cases tail <;> simp [join]
  | cons c r =>
    cases tail with
    | nil => simp [join]
    | cons t ts => simp [join]

/-- The text of a block as its author sees it: the first `lead` columns of the first line are taken
by the tags and by the marker (`lead` is the 1-based column of the marker, nifty/parsing.py:163-166),
all other lines belong to the text from their first column on. -/
def asWritten (lead : Nat) (head : Str) (tail : List Str) : List Str :=
  (List.replicate lead ' ' ++ head) :: tail

/-- `p` is the indentation that the block owns: a whitespace prefix shared by all non-blank lines,
not longer than what precedes the first line (tags, marker) and one space, and no such prefix is longer. -/
structure OwnIndent (lead : Nat) (written : List Str) (p : Str) : Prop where
  blank : ∀ c ∈ p, isSpace c = true
  shared : ∀ l ∈ written, NonBlank l → p <+: l
  bound : p.length ≤ lead + 1
  longest : (∃ l ∈ written, NonBlank l) → ∀ w : Str, (∀ c ∈ w, isSpace c = true) →
    (∀ l ∈ written, NonBlank l → w <+: l) → w.length ≤ lead + 1 → w.length ≤ p.length

theorem layout_own {lead : Nat} {body head : Str} {tail : List Str}
    (hb : lines body = head :: tail) :
    OwnIndent lead (asWritten lead head tail)
      ((getIndent (List.replicate lead ' ' ++ body)).take (lead + 1)) := by
  have hl : lines (List.replicate lead ' ' ++ body) = asWritten lead head tail :=
    lines_append_left (by simp) hb
  obtain ⟨⟨g1, g2⟩, g3, _⟩ := getIndent_spec (List.replicate lead ' ' ++ body)
  rw [hl] at g2 g3
  refine ⟨fun c hc => g1 c (List.mem_of_mem_take hc), ?_, ?_, ?_⟩
  · intro l hm hn
    exact (List.take_prefix _ _).trans (g2 l hm hn)
  · simp only [List.length_take]; omega
  · intro hne w w1 w2 w3
    have := g3 hne w ⟨w1, by rw [hl]; exact w2⟩
    simp only [List.length_take]; omega

/-- C61, for every marker column and all lines. The block's own indentation `p` is removed from
each non-blank line after the first one, and nothing else is, so these lines keep their indentation
relative to each other; no line is added or lost. The first line keeps its position relative to the
others if they are indented at least up to the marker; otherwise the whole place of the marker is
removed and, with it, at most one space that separates the marker from the text. -/
theorem C61_lines_partial (lead : Nat) (body head : Str) (tail : List Str)
    (hb : lines body = head :: tail) :
    ∃ p head' tail', OwnIndent lead (asWritten lead head tail) p ∧
      lines (layoutText lead body) = head' :: tail' ∧
      tail'.length = tail.length ∧
      (∀ (k : Nat) t t', tail[k]? = some t → tail'[k]? = some t' → NonBlank t → t = p ++ t') ∧
      (∀ (k : Nat) t t', tail[k]? = some t → tail'[k]? = some t' → ¬ NonBlank t →
        t = p ++ t' ∨ t = t') ∧
      (NonBlank head → lead ≤ p.length → List.replicate lead ' ' ++ head = p ++ head') ∧
      (NonBlank head → p.length < lead →
        (head = ' ' :: head') ∨ (head = head' ∧ ∀ r, head ≠ ' ' :: r)) := by
  have hl : lines (List.replicate lead ' ' ++ body) = asWritten lead head tail :=
    lines_append_left (by simp) hb
  have own := layout_own (lead := lead) hb
  have hnl : '\n' ∉ (getIndent (List.replicate lead ' ' ++ body)).take (lead + 1) := fun h =>
    getIndent_no_newline _ (List.mem_of_mem_take h)
  generalize hp : (getIndent (List.replicate lead ' ' ++ body)).take (lead + 1) = p at own hnl
  have hd : lines (delIndentBy (List.replicate lead ' ' ++ body) p) =
      unshift p (List.replicate lead ' ' ++ head) :: tail.map (unshift p) := by
    rw [lines_delIndentBy _ _ hnl, hl]; rfl
  have htail1 : ∀ (k : Nat) t t', tail[k]? = some t → (tail.map (unshift p))[k]? = some t' →
      NonBlank t → t = p ++ t' := by
    intro k t t' h1 h2 hn
    simp only [List.getElem?_map, h1, Option.map_some, Option.some.injEq] at h2
    obtain ⟨r, hr⟩ := own.shared t (List.mem_cons_of_mem _ (List.mem_of_getElem? h1)) hn
    subst hr h2
    simp [unshift]
  have htail2 : ∀ (k : Nat) t t', tail[k]? = some t → (tail.map (unshift p))[k]? = some t' →
      ¬ NonBlank t → t = p ++ t' ∨ t = t' := by
    intro k t t' h1 h2 hn
    simp only [List.getElem?_map, h1, Option.map_some, Option.some.injEq] at h2
    subst h2
    unfold unshift
    split
    · rename_i hpre
      obtain ⟨r, rfl⟩ := hpre
      left; simp
    · right; rfl
  have hnbl : NonBlank head → NonBlank (List.replicate lead ' ' ++ head) := by
    rintro ⟨c, hc, h⟩; exact ⟨c, by simp [hc], h⟩
  have hhead : NonBlank head → List.replicate lead ' ' ++ head =
      p ++ unshift p (List.replicate lead ' ' ++ head) := by
    intro hn
    obtain ⟨r, hr⟩ := own.shared _ (List.mem_cons_self ..) (hnbl hn)
    rw [← hr]; simp [unshift]
  by_cases hlt : p.length < lead
  · -- the place of the marker is removed
    have hlen : lead - p.length ≤ (unshift p (List.replicate lead ' ' ++ head)).length := by
      unfold unshift
      split
      · simp only [List.length_drop, List.length_append, List.length_replicate]; omega
      · simp only [List.length_append, List.length_replicate]; omega
    have hdrop := lines_drop hd hlen
    have hone := take_one_space hdrop
    generalize hu : unshift p (List.replicate lead ' ' ++ head) = u at hd hlen hdrop hone hhead
    have hlay : layoutText lead body =
        (delIndentBy (List.replicate lead ' ' ++ body) p).drop
          (if ((delIndentBy (List.replicate lead ' ' ++ body) p).drop (lead - p.length)).take 1
              = [' '] then lead - p.length + 1 else lead - p.length) := by
      unfold layoutText
      simp only [hp, if_pos hlt]
    have hcore : NonBlank head → u.drop (lead - p.length) = head := by
      intro hn
      have h := hhead hn
      have h2 := congrArg (List.drop lead) h
      rw [List.drop_append_of_le_length (by simp)] at h2
      simp only [List.drop_replicate, Nat.sub_self, List.replicate_zero, List.nil_append] at h2
      rw [h2, List.drop_append, List.drop_eq_nil_of_le (as := p) (by omega)]
      rfl
    by_cases hsp : ∃ r, u.drop (lead - p.length) = ' ' :: r
    · obtain ⟨r, hr⟩ := hsp
      rw [if_pos (hone.2 ⟨r, hr⟩)] at hlay
      have hlen' : lead - p.length + 1 ≤ u.length := by
        have := congrArg List.length hr
        simp only [List.length_drop, List.length_cons] at this
        omega
      refine ⟨p, u.drop (lead - p.length + 1), tail.map (unshift p), own, ?_, by simp, htail1,
        htail2, fun _ h => absurd h (by omega), ?_⟩
      · rw [hlay]; exact lines_drop hd hlen'
      · intro hn _
        left
        have : u.drop (lead - p.length + 1) = r := by
          rw [← List.drop_drop, hr]; rfl
        rw [this, ← hr, hcore hn]
    · rw [if_neg (fun h => hsp (hone.1 h))] at hlay
      refine ⟨p, u.drop (lead - p.length), tail.map (unshift p), own, ?_, by simp, htail1,
        htail2, fun _ h => absurd h (by omega), ?_⟩
      · rw [hlay]; exact hdrop
      · intro hn _
        right
        refine ⟨(hcore hn).symm, fun r hr => hsp ⟨r, ?_⟩⟩
        rw [hcore hn, hr]
  · have hlay : layoutText lead body = delIndentBy (List.replicate lead ' ' ++ body) p := by
      unfold layoutText
      simp only [hp, if_neg hlt]
    exact ⟨p, _, _, own, by rw [hlay]; exact hd, by simp, htail1, htail2, fun hn _ => hhead hn,
      fun _ h => absurd h hlt⟩

/-- Number of leading spaces. -/
def leadingSpaces (l : Str) : Nat := (l.takeWhile (· == ' ')).length

/-- The indentation of the line consists of spaces. -/
def SpaceIndented (l : Str) : Prop :=
  ∃ n c r, l = List.replicate n ' ' ++ c :: r ∧ isSpace c = false

theorem leadingSpaces_replicate (n : Nat) (c : Char) (r : Str) (hc : isSpace c = false) :
    leadingSpaces (List.replicate n ' ' ++ c :: r) = n := by
  have hne : c ≠ ' ' := by rintro rfl; exact absurd hc (by decide)
  unfold leadingSpaces
  induction n with
  | zero => simp [hne]
  | succ n ih =>
    rw [List.replicate_succ, List.cons_append, List.takeWhile_cons]
    simpa using ih

theorem spaces_prefix {p : Str} {n : Nat} {c : Char} {r : Str} (hc : isSpace c = false)
    (hp : ∀ d ∈ p, isSpace d = true) :
    p <+: List.replicate n ' ' ++ c :: r ↔ p = List.replicate p.length ' ' ∧ p.length ≤ n := by
  constructor
  · intro h
    induction p generalizing n with
    | nil => simp
    | cons d p ih =>
      cases n with
      | zero =>
        simp only [List.replicate_zero, List.nil_append, List.cons_prefix_cons] at h
        rw [h.1] at hp
        exact absurd (hp c (by simp)) (by simp [hc])
      | succ n =>
        rw [List.replicate_succ, List.cons_append, List.cons_prefix_cons] at h
        obtain ⟨h1, h2⟩ := ih (fun d hd => hp d (by simp [hd])) h.2
        refine ⟨?_, by simp; omega⟩
        rw [List.length_cons, List.replicate_succ, ← h1, h.1]
  · rintro ⟨h1, h2⟩
    rw [h1]
    refine ⟨List.replicate (n - p.length) ' ' ++ c :: r, ?_⟩
    rw [← List.append_assoc, List.replicate_append_replicate, Nat.add_sub_cancel' h2]

/-- C61, quantitatively, for blocks that are indented with spaces and have some text in the first
line. With `m` the smallest indentation of the non-blank lines, where the text of the first line
stands behind the marker, exactly `w = min m (lead + 1)` columns are removed from each line. -/
theorem C61_spaces_partial (lead : Nat) (body head : Str) (tail : List Str)
    (hb : lines body = head :: tail)
    (hhead : NonBlank head)
    (hsp : ∀ l ∈ head :: tail, NonBlank l → SpaceIndented l) :
    ∃ w head' tail', lines (layoutText lead body) = head' :: tail' ∧
      -- what is removed: up to the leftmost line, at most the marker and one space
      (∀ l ∈ asWritten lead head tail, NonBlank l → w ≤ leadingSpaces l) ∧ w ≤ lead + 1 ∧
      (w = lead + 1 ∨ ∃ l ∈ asWritten lead head tail, NonBlank l ∧ leadingSpaces l = w) ∧
      -- each line is shifted to the left by that many columns
      tail'.length = tail.length ∧
      (∀ (k : Nat) t t', tail[k]? = some t → tail'[k]? = some t' → NonBlank t →
        t' = t.drop w ∧ leadingSpaces t' + w = leadingSpaces t) ∧
      (lead ≤ w → head' = head.drop (w - lead) ∧ leadingSpaces head' + w =
        lead + leadingSpaces head) ∧
      (w < lead → (head = ' ' :: head') ∨ (head = head' ∧ leadingSpaces head = 0)) := by
  obtain ⟨p, head', tail', own, h1, h2, h3, _, h5, h6⟩ := C61_lines_partial lead body head tail hb
  -- every written line is indented with spaces
  have hsp' : ∀ l ∈ asWritten lead head tail, NonBlank l → SpaceIndented l := by
    intro l hl hn
    rcases List.mem_cons.1 hl with rfl | hl
    · obtain ⟨n, c, r, rfl, hc⟩ := hsp head (by simp) hhead
      exact ⟨lead + n, c, r, by rw [← List.append_assoc, List.replicate_append_replicate], hc⟩
    · exact hsp l (List.mem_cons_of_mem _ hl) hn
  have hwr : NonBlank (List.replicate lead ' ' ++ head) := by
    obtain ⟨c, hc, h⟩ := hhead; exact ⟨c, by simp [hc], h⟩
  have hmem : List.replicate lead ' ' ++ head ∈ asWritten lead head tail := by simp [asWritten]
  have hps : p = List.replicate p.length ' ' := by
    obtain ⟨n, c, r, e, hc⟩ := hsp' _ hmem hwr
    have := own.shared _ hmem hwr
    rw [e] at this
    exact ((spaces_prefix hc own.blank).1 this).1
  have hle : ∀ l ∈ asWritten lead head tail, NonBlank l → p.length ≤ leadingSpaces l := by
    intro l hl hn
    obtain ⟨n, c, r, rfl, hc⟩ := hsp' l hl hn
    rw [leadingSpaces_replicate n c r hc]
    exact ((spaces_prefix hc own.blank).1 (own.shared _ hl hn)).2
  have hshift : ∀ l l', NonBlank l → SpaceIndented l → l = p ++ l' →
      l' = l.drop p.length ∧ leadingSpaces l' + p.length = leadingSpaces l := by
    intro l l' _ hs e
    refine ⟨by rw [e]; simp, ?_⟩
    obtain ⟨n, c, r, rfl, hc⟩ := hs
    have hpre : p <+: List.replicate n ' ' ++ c :: r := ⟨l', e.symm⟩
    have hn := ((spaces_prefix hc own.blank).1 hpre).2
    have hl' : l' = List.replicate (n - p.length) ' ' ++ c :: r := by
      have e' : l' = (List.replicate n ' ' ++ c :: r).drop p.length := by rw [e]; simp
      rw [e', List.drop_append_of_le_length (by simpa using hn), List.drop_replicate]
    rw [hl', leadingSpaces_replicate _ c r hc, leadingSpaces_replicate _ c r hc]
    omega
  refine ⟨p.length, head', tail', h1, hle, own.bound, ?_, h2, ?_, ?_, ?_⟩
  · by_cases hw : p.length = lead + 1
    · exact .inl hw
    · right
      by_contra hno
      have hlong := own.longest ⟨_, hmem, hwr⟩ (List.replicate (p.length + 1) ' ')
        (by intro c hc; rw [(List.mem_replicate.1 hc).2]; decide) ?_
        (by have := own.bound; simp; omega)
      · simp only [List.length_replicate] at hlong; omega
      · intro l hl hn
        obtain ⟨n, c, r, rfl, hc⟩ := hsp' l hl hn
        have hge := hle _ hl hn
        have hne : leadingSpaces (List.replicate n ' ' ++ c :: r) ≠ p.length :=
          fun h => hno ⟨_, hl, hn, h⟩
        rw [leadingSpaces_replicate n c r hc] at hge hne
        exact (spaces_prefix hc (by intro d hd; rw [(List.mem_replicate.1 hd).2]; decide)).2
          ⟨by simp, by simp; omega⟩
  · intro k t t' e1 e2 hn
    exact hshift t t' hn (hsp t (List.mem_cons_of_mem _ (List.mem_of_getElem? e1)) hn)
      (h3 k t t' e1 e2 hn)
  · intro hge
    obtain ⟨a, b⟩ := hshift _ head' hwr (hsp' _ hmem hwr) (h5 hhead hge)
    constructor
    · rw [a, List.drop_append, List.drop_eq_nil_of_le (by simpa using hge)]; simp
    · rw [b]
      obtain ⟨n, c, r, rfl, hc⟩ := hsp head (by simp) hhead
      rw [← List.append_assoc, List.replicate_append_replicate, leadingSpaces_replicate _ c r hc,
        leadingSpaces_replicate _ c r hc]
  · intro hlt
    rcases h6 hhead hlt with h | ⟨h, hne⟩
    · exact .inl h
    · refine .inr ⟨h, ?_⟩
      cases head with
      | nil => rfl
      | cons c r =>
        have : c ≠ ' ' := fun e => hne r (by rw [e])
        simp [leadingSpaces, this]

/-- C61 in general is false: the indentation of the lines below the first one is removed only if
it is written with spaces, since the place of the marker is compared as a run of spaces. With tabs
the lines come out with the indentation of the block. -/
theorem C61_not_in_general :
    layoutText 3 (s!!" head\n\ttail") = (s!!"head\n\ttail") := by decide

/-- Nor does it hold when the first line is blank: the place of the marker is left over in it as
trailing whitespace, although the block has no such text. -/
theorem C61_not_in_general_blank_head :
    layoutText 3 (s!!"\n        text") = (s!!"   \n    text") := by decide

/-- Non-vacuity: `p | first` with the marker in column 3, continued two lines below. -/
example : lines (s!!" first\n    second\n\n      third") =
    [s!!" first", s!!"    second", [], s!!"      third"] ∧
    NonBlank (s!!" first") ∧
    (∀ l ∈ [s!!" first", s!!"    second", [], s!!"      third"], NonBlank l → SpaceIndented l) ∧
    layoutText 3 (s!!" first\n    second\n\n      third") = (s!!"first\nsecond\n\n  third") := by
  refine ⟨by decide, by decide, ?_, by decide⟩
  intro l hl hn
  simp only [List.mem_cons, List.not_mem_nil, or_false] at hl
  rcases hl with rfl | rfl | rfl | rfl
  · exact ⟨1, 'f', s!!"irst", by decide, by decide⟩
  · exact ⟨4, 's', s!!"econd", by decide, by decide⟩
  · exact absurd hn (by decide)
  · exact ⟨6, 't', s!!"hird", by decide, by decide⟩

/-- Lines to the left of the marker: only the marker's place goes away from the first line. -/
example : layoutText 5 (s!!" first\n  second\n    third") = (s!!"first\nsecond\n  third") := by
  decide

end Verif
