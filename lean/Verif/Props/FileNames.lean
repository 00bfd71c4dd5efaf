import Verif.Model.Nifty
import Verif.Spec.Nifty

/-! C105: file names and their extensions. -/

namespace Verif
open Nifty

theorem takeWhile_ne_append {c : Char} {a b : Str} (h : c ∉ a) :
    (a ++ c :: b).takeWhile (· != c) = a := by
  induction a with
  | nil => simp
  | cons x a ih =>
    rw [List.mem_cons, not_or] at h
    have hx : (x != c) = true := bne_iff_ne.2 fun e => h.1 e.symm
    rw [List.cons_append, List.takeWhile_cons, if_pos hx, ih h.2]

theorem dropWhile_ne_append {c : Char} {a b : Str} (h : c ∉ a) :
    (a ++ c :: b).dropWhile (· != c) = c :: b := by
  induction a with
  | nil => simp
  | cons x a ih =>
    rw [List.mem_cons, not_or] at h
    have hx : (x != c) = true := bne_iff_ne.2 fun e => h.1 e.symm
    rw [List.cons_append, List.dropWhile_cons, if_pos hx, ih h.2]

theorem takeWhile_ne_all {c : Char} {a : Str} (h : c ∉ a) : a.takeWhile (· != c) = a := by
  induction a with
  | nil => rfl
  | cons x a ih =>
    rw [List.mem_cons, not_or] at h
    have hx : (x != c) = true := bne_iff_ne.2 fun e => h.1 e.symm
    rw [List.takeWhile_cons, if_pos hx, ih h.2]

/-- A string with `c` in it is what comes before the last `c`, `c`, and the rest. -/
theorem split_last {c : Char} {s : Str} (h : c ∈ s) : ∃ a b, s = a ++ c :: b ∧ c ∉ b := by
  induction s with
  | nil => cases h
  | cons x s ih =>
    by_cases hs : c ∈ s
    · obtain ⟨a, b, e, hb⟩ := ih hs
      exact ⟨x :: a, b, by rw [e]; rfl, hb⟩
    · rcases List.mem_cons.1 h with rfl | h
      · exact ⟨[], s, rfl, hs⟩
      · exact absurd h hs

theorem split_first {c : Char} {s : Str} (h : c ∈ s) : ∃ a b, s = a ++ c :: b ∧ c ∉ a := by
  induction s with
  | nil => cases h
  | cons x s ih =>
    by_cases hx : c = x
    · subst hx; exact ⟨[], s, rfl, by simp⟩
    · rcases List.mem_cons.1 h with e | h
      · exact absurd e hx
      · obtain ⟨a, b, e, ha⟩ := ih h
        exact ⟨x :: a, b, by rw [e]; rfl, by simp [hx, ha]⟩

theorem beforeLast_some {c : Char} {a b : Str} (h : c ∉ b) : beforeLast c (a ++ c :: b) = some a := by
  rw [beforeLast, if_pos (by simp)]
  have : (a ++ c :: b).reverse = b.reverse ++ c :: a.reverse := by simp
  rw [this, dropWhile_ne_append (by simpa using h)]
  simp

theorem beforeLast_none {c : Char} {s : Str} (h : c ∉ s) : beforeLast c s = none := by
  rw [beforeLast, if_neg h]

theorem afterLast_split {path dir name : Str} (h : Spec.PathSplit path dir name) :
    afterLast '/' path = name := by
  obtain ⟨rfl, hn, hd⟩ := h
  rw [afterLast]
  rcases hd with rfl | hd
  · rw [List.nil_append, takeWhile_ne_all (by simpa using hn), List.reverse_reverse]
  · obtain ⟨d, rfl⟩ := List.getLast?_eq_some_iff.1 hd
    have : (d ++ ['/'] ++ name).reverse = name.reverse ++ '/' :: d.reverse := by simp
    rw [this, takeWhile_ne_append (by simpa using hn), List.reverse_reverse]

theorem pathSplit_exists (path : Str) : ∃ dir name, Spec.PathSplit path dir name := by
  by_cases h : '/' ∈ path
  · obtain ⟨a, b, e, hb⟩ := split_last h
    exact ⟨a ++ ['/'], b, ⟨by simp [e], hb, .inr (by simp)⟩⟩
  · exact ⟨[], path, ⟨rfl, h, .inl rfl⟩⟩

theorem dropext_dot {dir stem ext : Str} (he : '.' ∉ ext) (hs : '/' ∉ ext) :
    dropext (dir ++ stem ++ '.' :: ext) = dir ++ stem := by
  rw [dropext, beforeLast_some he]
  simp only [List.drop_left, List.mem_cons, hs, or_false]
  rw [if_neg (by decide)]

theorem dropext_plain {path dir name : Str} (h : Spec.PathSplit path dir name) (hn : '.' ∉ name) :
    dropext path = path := by
  obtain ⟨rfl, hns, hd⟩ := h
  by_cases hm : '.' ∈ dir ++ name
  · obtain ⟨a, b, e, hb⟩ := split_last hm
    rw [dropext, e, beforeLast_some hb]
    simp only [List.drop_left]
    rw [if_pos]
    -- the last dot lies in `dir`, which ends with a slash
    have hdir : '.' ∈ dir := by
      rcases List.mem_append.1 hm with h | h
      · exact h
      · exact absurd h hn
    obtain ⟨a', b', e', hb'⟩ := split_last hdir
    rcases hd with rfl | hd
    · cases hdir
    · have e2 : a ++ '.' :: b = a' ++ '.' :: (b' ++ name) := by rw [← e, e']; simp
      have hbn : '.' ∉ b' ++ name := by simp [hb', hn]
      have h1 := beforeLast_some (a := a) hb
      rw [e2, beforeLast_some hbn] at h1
      have h2 := Option.some.inj h1
      rw [← h2] at e2
      have e3 := List.append_cancel_left e2
      have e4 : b = b' ++ name := by injection e3
      rw [e4]
      rw [e'] at hd
      rcases List.eq_nil_or_concat b' with rfl | ⟨q, z, rfl⟩
      · simp at hd
      · have : z = '/' := by
          have e5 : a' ++ '.' :: (q ++ [z]) = (a' ++ '.' :: q) ++ [z] := by simp
          rw [List.concat_eq_append, e5, List.getLast?_concat] at hd
          exact Option.some.inj hd
        subst this
        simp
  · rw [dropext, beforeLast_none hm]

/-- C105 (`dropext`): a last component without a dot is left alone; otherwise exactly its last dot and
what follows are removed. -/
theorem C105_dropext (path dir name : Str) (h : Spec.PathSplit path dir name) :
    ('.' ∉ name → dropext path = path) ∧
      ∀ stem ext, name = stem ++ '.' :: ext → '.' ∉ ext → dropext path = dir ++ stem := by
  refine ⟨dropext_plain h, ?_⟩
  intro stem ext e he
  obtain ⟨rfl, hn, _⟩ := h
  subst e
  have hx : '/' ∉ ext := fun hm => hn (by simp [hm])
  rw [← List.append_assoc]
  exact dropext_dot he hx

/-- C105 (`dropexts`): a last component without a dot is left alone; otherwise its first dot and
everything after it are removed. -/
theorem C105_dropexts (path dir name : Str) (h : Spec.PathSplit path dir name) :
    ('.' ∉ name → dropexts path = path) ∧
      ∀ stem ext, name = stem ++ '.' :: ext → '.' ∉ stem → dropexts path = dir ++ stem := by
  have ha := afterLast_split h
  obtain ⟨rfl, hn, hd⟩ := h
  refine ⟨?_, ?_⟩
  · intro hm
    rw [dropexts, ha, if_neg hm]
  · intro stem ext e hs
    rw [dropexts, ha, if_pos (by rw [e]; simp)]
    rw [e, takeWhile_ne_append hs]
    have : (dir ++ (stem ++ '.' :: ext)).length - (stem ++ '.' :: ext).length + stem.length =
        (dir ++ stem).length := by simp
    rw [this, ← List.append_assoc, List.take_left]

/-- The path without the extension that `dropext` removes still has the same directory. -/
theorem dropext_split {path dir name : Str} (h : Spec.PathSplit path dir name) :
    ∃ stem, Spec.PathSplit (dropext path) dir stem := by
  by_cases hm : '.' ∈ name
  · obtain ⟨a, b, e, hb⟩ := split_last hm
    refine ⟨a, (C105_dropext path dir name h).2 a b e hb, ?_, h.dirEnd⟩
    intro hs; exact h.noSlash (by rw [e]; simp [hs])
  · exact ⟨name, by rw [(C105_dropext path dir name h).1 hm]; exact h⟩

/-- C105 (`setext`): an extension without dots and slashes that has been set can be dropped or set
again as if it had not been; `setext(f)` without an extension drops it. -/
theorem C105_setext (path ext : Str) (other : Option Str) (hd : '.' ∉ ext) (hs : '/' ∉ ext) :
    dropext (setext path (some ext)) = dropext path ∧
      setext (setext path (some ext)) other = setext path other ∧ setext path none = dropext path := by
  have h : dropext (setext path (some ext)) = dropext path := by
    rw [setext]
    have := dropext_dot (dir := dropext path) (stem := []) hd hs
    simpa using this
  refine ⟨h, ?_, by rw [setext, List.append_nil]⟩
  cases other with
  | none =>
    show dropext _ ++ [] = dropext _ ++ []
    rw [h]
  | some e =>
    show dropext _ ++ _ = dropext _ ++ _
    rw [h]

/-- C105 (dropping one by one): removing all extensions leaves none, and it makes no difference if one
has been removed before. -/
theorem C105_dropexts_dropext (path : Str) :
    dropext (dropexts path) = dropexts path ∧ dropexts (dropext path) = dropexts path := by
  obtain ⟨dir, name, h⟩ := pathSplit_exists path
  by_cases hm : '.' ∈ name
  · obtain ⟨a, b, e, ha⟩ := split_first hm
    have e1 := (C105_dropexts path dir name h).2 a b e ha
    have hsa : Spec.PathSplit (dir ++ a) dir a :=
      ⟨rfl, fun hx => h.noSlash (by rw [e]; simp [hx]), h.dirEnd⟩
    refine ⟨?_, ?_⟩
    · rw [e1]; exact (C105_dropext _ _ _ hsa).1 ha
    · obtain ⟨p, q, e2, hq⟩ := split_last hm
      have e3 := (C105_dropext path dir name h).2 p q e2 hq
      have hsp : Spec.PathSplit (dir ++ p) dir p :=
        ⟨rfl, fun hx => h.noSlash (by rw [e2]; simp [hx]), h.dirEnd⟩
      rw [e3, e1]
      by_cases hp : '.' ∈ p
      · obtain ⟨p1, p2, e4, hp1⟩ := split_first hp
        rw [(C105_dropexts _ _ _ hsp).2 p1 p2 e4 hp1]
        -- the first dot of `p` is the first dot of the name
        have : a = p1 := by
          have t1 := takeWhile_ne_append (b := b) ha
          have t2 := takeWhile_ne_append (b := p2 ++ '.' :: q) hp1
          have : a ++ '.' :: b = p1 ++ '.' :: (p2 ++ '.' :: q) := by rw [← e, e2, e4]; simp
          rw [← this, t1] at t2
          exact t2
        rw [this]
      · rw [(C105_dropexts _ _ _ hsp).1 hp]
        have : a = p := by
          have t1 := takeWhile_ne_append (b := b) ha
          have t2 := takeWhile_ne_append (b := q) hp
          have : a ++ '.' :: b = p ++ '.' :: q := by rw [← e, e2]
          rw [← this, t1] at t2
          exact t2
        rw [this]
  · rw [(C105_dropexts path dir name h).1 hm, (C105_dropext path dir name h).1 hm,
      (C105_dropexts path dir name h).1 hm]
    exact ⟨rfl, rfl⟩

theorem getext_dot {path dir stem ext : Str} (h : Spec.PathSplit path dir (stem ++ '.' :: ext))
    (he : '.' ∉ ext) : getext path = if stem.all (· == '.') then [] else ext := by
  have hs : splitext path = if stem.all (· == '.') then [] else '.' :: ext := by
    unfold splitext
    simp only [afterLast_split h]
    rw [beforeLast_some he]
    simp only [List.drop_left]
  rw [getext, hs]
  split <;> simp

/-- C105 (`getext` after `setext`): the extension that has been set is read back, if the name before
it has a character other than a dot. -/
theorem C105_getext_partial (path dir stem ext : Str) (h : Spec.PathSplit (dropext path) dir stem)
    (hc : ∃ c ∈ stem, c ≠ '.') (hd : '.' ∉ ext) (hs : '/' ∉ ext) :
    getext (setext path (some ext)) = ext := by
  have h' : Spec.PathSplit (setext path (some ext)) dir (stem ++ '.' :: ext) := by
    refine ⟨by rw [setext, h.eq, List.append_assoc], ?_, h.dirEnd⟩
    intro hm
    rcases List.mem_append.1 hm with hm | hm
    · exact h.noSlash hm
    · rcases List.mem_cons.1 hm with hm | hm
      · exact absurd hm (by decide)
      · exact hs hm
  rw [getext_dot h' hd, if_neg]
  obtain ⟨c, hc, hne⟩ := hc
  intro ha
  exact hne (by simpa using List.all_eq_true.1 ha c hc)

/-- C105 (`setext` after `getext`): setting the extension that a file name has changes nothing. -/
theorem C105_getext_setext (path : Str) (h : getext path ≠ []) :
    setext path (some (getext path)) = path := by
  obtain ⟨dir, name, hp⟩ := pathSplit_exists path
  by_cases hm : '.' ∈ name
  · obtain ⟨a, b, e, hb⟩ := split_last hm
    have hg := getext_dot (e ▸ hp) hb
    rw [hg] at h ⊢
    split at h
    · exact absurd rfl h
    · rename_i hna
      rw [if_neg hna, setext, (C105_dropext path dir name hp).2 a b e hb, hp.eq, e, List.append_assoc]
  · exfalso
    apply h
    have : splitext path = [] := by
      unfold splitext
      simp only [afterLast_split hp]
      rw [beforeLast_none hm]
    rw [getext, this, if_pos rfl]

/-- C105 is false in general: for a name that consists of an extension only, `setext` makes a name
that `getext` takes to have no extension. -/
theorem C105_not_in_general :
    ¬ ∀ path ext : Str, '.' ∉ ext → '/' ∉ ext → getext (setext path (some ext)) = ext := by
  intro h
  exact absurd (h (s!!"home/.profile") (s!!"txt") (by decide) (by decide)) (by decide)

/-- C105 (`normdir`): a slash is added unless there is one at the end already; the empty path, which
stands for the current directory, becomes the root. -/
theorem C105_normdir (folder : Str) :
    (normdir folder).getLast? = some '/' ∧ normdir (normdir folder) = normdir folder ∧
      (normdir folder = folder ∨ normdir folder = folder ++ ['/']) ∧ normdir [] = ['/'] := by
  have h : (normdir folder).getLast? = some '/' := by
    unfold normdir
    split
    · assumption
    · simp
  refine ⟨h, ?_, ?_, rfl⟩
  · rw [normdir, if_pos h]
  · unfold normdir
    split
    · exact .inl rfl
    · exact .inr rfl

/-- The examples of the documentation; and a dot in a directory name. -/
example : dropext (s!!"/home/marcin/ala.ma.kota.txt") = (s!!"/home/marcin/ala.ma.kota") ∧
    dropexts (s!!"/home/marcin.jan/ala.ma.kota.txt") = (s!!"/home/marcin.jan/ala") ∧
    dropexts (s!!"/home/marcin.jan/ala") = (s!!"/home/marcin.jan/ala") ∧
    setext (s!!"/home/marcin/ala.ma.kota.txt") (some (s!!"png")) = (s!!"/home/marcin/ala.ma.kota.png") ∧
    dropext (s!!"a.b/c") = (s!!"a.b/c") ∧ getext (s!!"a.b/c.d.e") = (s!!"e") ∧ getext (s!!"a/..x") = [] ∧
    normdir (s!!"some/dir") = (s!!"some/dir/") := by decide

example : Spec.PathSplit (s!!"a.b/c.d") (s!!"a.b/") (s!!"c.d") := ⟨rfl, by decide, .inr rfl⟩

end Verif
