import Verif.Spec.CommandLine
import Mathlib.Data.List.Forall2

/-!
# Lemmas about the parser of command lines
-/

set_option linter.unusedSectionVars false

namespace RSE.Cmd

variable {R : Reader} {names : List (Text × Act)} {w t e : Text} {a : Act}

/-! ### Texts -/

theorem splitEq_some : ∀ {w p e : Text}, splitEq w = some (p, e) → w = p ++ '=' :: e ∧ '=' ∉ p
  | [], _, _, h => by simp [splitEq] at h
  | c :: cs, p, e, h => by
    unfold splitEq at h
    split at h
    · rename_i hc; subst hc
      obtain ⟨rfl, rfl⟩ := Prod.mk.injEq .. ▸ Option.some.inj h
      simp
    · rename_i hc
      cases hs : splitEq cs with
      | none => simp [hs] at h
      | some q =>
        obtain ⟨q1, q2⟩ := q
        simp only [hs, Option.map_some, Option.some.injEq, Prod.mk.injEq] at h
        obtain ⟨rfl, rfl⟩ := h
        obtain ⟨h1, h2⟩ := splitEq_some hs
        exact ⟨by rw [h1]; rfl, by simp [h2, Ne.symm hc]⟩

theorem splitEq_none : ∀ {w : Text}, splitEq w = none ↔ '=' ∉ w
  | [] => by simp [splitEq]
  | c :: cs => by
    unfold splitEq
    split
    · rename_i hc; simp [hc]
    · rename_i hc
      simp [splitEq_none (w := cs), Ne.symm hc]

theorem splitEq_append : ∀ {p e : Text}, '=' ∉ p → splitEq (p ++ '=' :: e) = some (p, e)
  | [], e, _ => by simp [splitEq]
  | c :: cs, e, h => by
    simp only [List.mem_cons, not_or] at h
    simp [splitEq, Ne.symm h.1, splitEq_append h.2]

theorem takeWhile_eq_of_splitEq {p : Text} (h : splitEq w = some (p, e)) : w.takeWhile (· ≠ '=') = p := by
  obtain ⟨rfl, h2⟩ := splitEq_some h
  rw [List.takeWhile_append_of_pos (by intro c hc; simp; rintro rfl; exact h2 hc)]
  simp

theorem takeWhile_eq_self (h : '=' ∉ w) : w.takeWhile (· ≠ '=') = w := by
  have := List.takeWhile_append_of_pos (p := fun c : Char => decide (c ≠ '=')) (l₁ := w) (l₂ := []) (by intro c hc; simp; rintro rfl; exact h hc)
  simpa using this

theorem isDigit_iff {c : Char} : isDigit c = true ↔ '0' ≤ c ∧ c ≤ '9' := by simp [isDigit]

theorem negativeNumber_iff : negativeNumber w = true ↔ NegativeNumber w := by
  have hdot : isDigit '.' = false := by decide
  constructor
  · intro h
    unfold negativeNumber at h
    split at h
    · rename_i ds
      rw [Bool.or_eq_true] at h
      rcases h with h | h
      · simp only [Bool.and_eq_true, decide_eq_true_eq, List.all_eq_true] at h
        exact .inl ⟨ds, rfl, h.1, fun c hc => isDigit_iff.1 (h.2 c hc)⟩
      · split at h
        · rename_i es hes
          simp only [Bool.and_eq_true, decide_eq_true_eq, List.all_eq_true] at h
          refine .inr ⟨ds.takeWhile isDigit, es, by rw [← hes, List.takeWhile_append_dropWhile], h.1, ?_, fun c hc => isDigit_iff.1 (h.2 c hc)⟩
          intro c hc
          exact isDigit_iff.1 (List.all_eq_true.1 (List.all_takeWhile (p := isDigit) (l := ds)) c hc)
        · cases h
    · cases h
  · rintro (⟨ds, rfl, h1, h2⟩ | ⟨ds, es, rfl, h1, h2, h3⟩)
    · simp only [negativeNumber, Bool.or_eq_true, Bool.and_eq_true, decide_eq_true_eq, List.all_eq_true]
      exact .inl ⟨h1, fun c hc => isDigit_iff.2 (h2 c hc)⟩
    · have hd : (ds ++ '.' :: es).dropWhile isDigit = '.' :: es := by
        rw [List.dropWhile_append_of_pos (fun c hc => isDigit_iff.2 (h2 c hc)), List.dropWhile_cons_of_neg (by simp [hdot])]
      simp only [negativeNumber, hd, Bool.or_eq_true, Bool.and_eq_true, decide_eq_true_eq, List.all_eq_true]
      exact .inr ⟨h1, fun c hc => isDigit_iff.2 (h3 c hc)⟩

/-! ### Tables -/

/-- what the lemmas need to know about the option strings of a table -/
structure GoodNames (names : List (Text × Act)) : Prop where
  nodup : (names.map Prod.fst).Nodup
  noEq : ∀ n ∈ names, '=' ∉ n.1
  shape : ∀ n ∈ names, (n.1 = ['-', 'h'] ∧ n.2 = .help true) ∨ ∃ c cs, n.1 = '-' :: '-' :: c :: cs
  h : (['-', 'h'], .help true) ∈ names
  help : (long "help", .help false) ∈ names

theorem Table.good {table : List Entry} (h : Table table) : GoodNames (optionStrings table) where
  nodup := h.names
  noEq := by
    intro n hn
    simp only [optionStrings, List.mem_cons, List.mem_flatMap] at hn
    rcases hn with rfl | rfl | ⟨e, he, hn⟩
    · decide
    · decide
    · have h1 := h.noEq e he
      cases e with
      | opt o =>
        simp only [Entry.names, List.mem_singleton] at hn
        subst hn
        simp only [long, List.mem_cons, not_or]
        exact ⟨by decide, by decide, h1⟩
      | switch d b =>
        simp only [Entry.names, List.mem_cons, List.not_mem_nil, or_false] at hn
        rcases hn with rfl | rfl
        · simp only [long, List.mem_cons, not_or]
          exact ⟨by decide, by decide, h1⟩
        · simp only [longNo, List.mem_cons, not_or]
          exact ⟨by decide, by decide, by decide, by decide, by decide, h1⟩
  shape := by
    intro n hn
    simp only [optionStrings, List.mem_cons, List.mem_flatMap] at hn
    rcases hn with rfl | rfl | ⟨e, he, hn⟩
    · exact .inl ⟨rfl, rfl⟩
    · exact .inr ⟨'h', ['e', 'l', 'p'], by decide⟩
    · have h1 := h.nonempty e he
      cases e with
      | opt o =>
        simp only [Entry.names, List.mem_singleton] at hn
        subst hn
        obtain ⟨c, cs, hc⟩ := List.exists_cons_of_ne_nil h1
        exact .inr ⟨c, cs, by simp only [long, Entry.dest] at hc ⊢; rw [hc]⟩
      | switch d b =>
        simp only [Entry.names, List.mem_cons, List.not_mem_nil, or_false] at hn
        rcases hn with rfl | rfl
        · obtain ⟨c, cs, hc⟩ := List.exists_cons_of_ne_nil h1
          exact .inr ⟨c, cs, by simp only [long, Entry.dest] at hc ⊢; rw [hc]⟩
        · exact .inr ⟨'n', _, rfl⟩
  h := by simp [optionStrings]
  help := by simp [optionStrings]

theorem lookup_some (h : lookup names w = some a) : (w, a) ∈ names := by
  unfold lookup at h
  cases hf : names.find? (fun n => n.1 = w) with
  | none => simp [hf] at h
  | some n =>
    rw [hf] at h
    obtain rfl := Option.some.inj h
    have h1 := List.mem_of_find?_eq_some hf
    have h2 := List.find?_some hf
    simp only [decide_eq_true_eq] at h2
    rw [← h2]; exact h1

theorem lookup_none : lookup names w = none ↔ ∀ b, (w, b) ∉ names := by
  unfold lookup
  rw [Option.map_eq_none_iff, List.find?_eq_none]
  constructor
  · intro h b hb; exact h _ hb (by simp)
  · rintro h ⟨n, b⟩ hn hb
    simp only [decide_eq_true_eq] at hb
    subst hb; exact h _ hn

theorem GoodNames.unique (g : GoodNames names) {b : Act} (h1 : (w, a) ∈ names) (h2 : (w, b) ∈ names) : a = b := by
  have h3 : ∀ {l : List (Text × Act)}, (l.map Prod.fst).Nodup → (w, a) ∈ l → (w, b) ∈ l → a = b := by
    intro l hl i1 i2
    induction l with
    | nil => simp at i1
    | cons x t ih =>
      simp only [List.map_cons, List.nodup_cons] at hl
      rcases List.mem_cons.1 i1 with rfl | i1 <;> rcases List.mem_cons.1 i2 with i2 | i2
      · exact (Prod.mk.injEq .. ▸ i2).2.symm
      · exact absurd (List.mem_map.2 ⟨_, i2, rfl⟩) hl.1
      · have hm : w ∈ t.map Prod.fst := List.mem_map.2 ⟨(w, a), i1, rfl⟩
        rw [← i2] at hl
        exact absurd hm hl.1
      · exact ih hl.2 i1 i2
  exact h3 g.nodup h1 h2

theorem GoodNames.lookup (g : GoodNames names) (h : (w, a) ∈ names) : Cmd.lookup names w = some a := by
  cases hl : Cmd.lookup names w with
  | none => exact absurd h (lookup_none.1 hl a)
  | some b => rw [g.unique h (lookup_some hl)]

/-! ### Candidates -/

/-- the candidates for a word with two hyphens -/
theorem candidates_long {cs : Text} : candidates names ('-' :: '-' :: cs) =
    names.filterMap (fun n => if (('-' :: '-' :: cs).takeWhile (· ≠ '=')).isPrefixOf n.1 then some (n.2, (splitEq ('-' :: '-' :: cs)).map Prod.snd) else none) := by
  unfold candidates
  simp only
  cases h : splitEq ('-' :: '-' :: cs) with
  | none => rw [takeWhile_eq_self (splitEq_none.1 h)]; rfl
  | some q =>
    obtain ⟨p, e⟩ := q
    rw [takeWhile_eq_of_splitEq h]; rfl


theorem filterMap_ite {α β : Type} (p : α → Bool) (f : α → β) : ∀ l : List α, l.filterMap (fun x => if p x then some (f x) else none) = (l.filter p).map f
  | [] => rfl
  | x :: t => by
    rw [List.filterMap_cons, List.filter_cons, filterMap_ite p f t]
    cases p x <;> rfl

theorem filter_eq_singleton {α : Type} {p : α → Bool} {l : List α} (hl : l.Nodup) {n : α} (hn : n ∈ l) (hp : p n = true) (hu : ∀ m ∈ l, p m = true → m = n) :
    l.filter p = [n] := by
  have h1 : (l.filter p).Nodup := hl.filter p
  have h2 : ∀ m ∈ l.filter p, m = n := fun m hm => hu m (List.mem_filter.1 hm).1 (List.mem_filter.1 hm).2
  have h3 : n ∈ l.filter p := List.mem_filter.2 ⟨hn, hp⟩
  match hf : l.filter p with
  | [] => rw [hf] at h3; simp at h3
  | [x] => rw [hf] at h2; rw [h2 x (by simp)]
  | x :: y :: t =>
    rw [hf] at h1 h2
    have := h2 x (by simp)
    have := h2 y (by simp)
    subst_vars
    simp at h1

/-- the word fits one option string only -/
theorem candidates_eq (g : GoodNames names) {c : Char} {cs name : Text} (hn : (name, a) ∈ names) (hw : (('-' :: '-' :: c :: cs).takeWhile (· ≠ '=')) <+: name)
    (hu : ∀ n ∈ names, (('-' :: '-' :: c :: cs).takeWhile (· ≠ '=')) <+: n.1 → n.1 = name) :
    candidates names ('-' :: '-' :: c :: cs) = [(a, (splitEq ('-' :: '-' :: c :: cs)).map Prod.snd)] := by
  rw [candidates_long, filterMap_ite, filter_eq_singleton (n := (name, a)) (List.Nodup.of_map _ g.nodup) hn (by simpa using hw)]
  · rfl
  · rintro ⟨m, b⟩ hm hp
    obtain rfl := hu _ hm (by simpa using hp)
    rw [g.unique hm hn]

/-! ### Words -/

theorem classify_value (g : GoodNames names) (hw : w ≠ ['-', '-']) (h : classify names w = .value t) : t = w ∧ Plain names w := by
  unfold classify at h
  split at h
  · rename_i h1; exact ⟨(Word.value.inj h).symm, .inl h1⟩
  · rename_i h1
    split at h
    · cases h
    · split at h
      · rename_i h2
        refine ⟨(Word.value.inj h).symm, .inr (.inl ?_)⟩
        match w, h1, h2 with
        | [c], h1, _ => simp at h1; rw [h1]
      · split at h
        · cases h
        · split at h
          · cases h
          · cases h
          · rename_i h2 _ _ h3
            split at h
            · rename_i h4
              refine ⟨(Word.value.inj h).symm, .inr (.inr ⟨?_, ?_, ?_⟩)⟩
              · rw [Bool.or_eq_true, negativeNumber_iff, List.contains_iff_mem] at h4; exact h4
              · rintro ⟨r, rfl⟩
                have : (Act.help true, some r) ∈ candidates names (['-', 'h'] ++ r) := by
                  show _ ∈ names.filterMap _
                  exact List.mem_filterMap.2 ⟨_, g.h, by simp⟩
                rw [h3] at this; simp at this
              · rintro n hn ⟨⟨r, rfl⟩, h5⟩
                have h6 := candidates_long (names := names) (cs := r)
                rw [show ['-', '-'] ++ r = '-' :: '-' :: r from rfl] at h3 h5
                rw [h6, List.filterMap_eq_nil_iff] at h3
                have := h3 n hn
                rw [if_pos (by simpa using h5)] at this
                cases this
            · cases h

theorem classify_plain (g : GoodNames names) (h : Plain names w) : classify names w = .value w := by
  rcases h with h | rfl | ⟨h1, h2, h3⟩
  · unfold classify; rw [if_pos h]
  · unfold classify
    rw [if_neg (by simp), lookup_none.2]
    · simp
    · intro b hb
      rcases g.shape _ hb with h | ⟨c, cs, h⟩ <;> simp at h
  · unfold classify
    split
    · rfl
    · rename_i hh
      have hl : ∀ {p : Text} {b : Act}, (p, b) ∈ names → w.takeWhile (· ≠ '=') = p → (∃ r, w = p ++ r) → False := by
        rintro p b hb hp ⟨r, hr⟩
        rcases g.shape _ hb with ⟨h, -⟩ | ⟨c, cs, h⟩
        · simp only at h; subst h; exact h2 ⟨r, hr.symm⟩
        · simp only at h
          refine h3 _ hb ⟨⟨c :: cs ++ r, ?_⟩, ?_⟩
          · rw [hr, h]; rfl
          · rw [hp]
      rw [lookup_none.2 (fun b hb => hl hb (takeWhile_eq_self (g.noEq _ hb)) ⟨[], by simp⟩)]
      simp only
      split
      · rfl
      · have hb : (splitEq w).bind (fun e => (lookup names e.1).map (fun a => (a, e.2))) = none := by
          cases hs : splitEq w with
          | none => rfl
          | some q =>
            obtain ⟨p, e⟩ := q
            simp only [Option.bind_some, Option.map_eq_none_iff]
            rw [lookup_none]
            intro b hb
            exact hl hb (takeWhile_eq_of_splitEq hs) ⟨_, (splitEq_some hs).1⟩
        rw [hb]
        have hc : candidates names w = [] := by
          match w, hh with
          | '-' :: '-' :: cs, _ =>
            rw [candidates_long, List.filterMap_eq_nil_iff]
            intro n hn
            rw [if_neg]
            intro h
            exact h3 n hn ⟨⟨cs, rfl⟩, by simpa using h⟩
          | [], hh => simp at hh
          | ['-'], hh => simp at *
          | c :: d :: cs, hh =>
            have hc : c = '-' := by simpa using hh
            subst hc
            by_cases hd : d = '-'
            · subst hd
              rw [candidates_long, List.filterMap_eq_nil_iff]
              intro n hn
              rw [if_neg]
              intro h
              exact h3 n hn ⟨⟨cs, rfl⟩, by simpa using h⟩
            · have : candidates names ('-' :: d :: cs) = names.filterMap (fun n => if n.1 = ['-', d] then some (n.2, some cs)
                  else if ('-' :: d :: cs).isPrefixOf n.1 then some (n.2, none) else none) := by
                unfold candidates
                split
                · rename_i h; simp at h; exact absurd h.1 hd
                · rfl
              rw [this, List.filterMap_eq_nil_iff]
              intro n hn
              rcases g.shape _ hn with ⟨h, -⟩ | ⟨c, cs', h⟩
              · have hd' : d ≠ 'h' := by rintro rfl; exact h2 ⟨cs, rfl⟩
                rw [h]
                simp [hd', Ne.symm hd']
              · rw [h]
                simp [hd]
        rw [hc]
        simp only
        rw [if_pos]
        rw [Bool.or_eq_true, negativeNumber_iff, List.contains_iff_mem]; exact h1


theorem classify_option (g : GoodNames names) (hw : w ≠ ['-', '-']) {x : Option Text} (h : classify names w = .option a x) :
    (∃ s, a = .help s) ∨ (x = none ∧ Names names w a) ∨ ∃ w' e, x = some e ∧ w = w' ++ '=' :: e ∧ Names names w' a := by
  unfold classify at h
  split at h
  · cases h
  · rename_i h1
    split at h
    · rename_i b hb
      cases h
      exact .inr (.inl ⟨rfl, .inl (lookup_some hb)⟩)
    · rename_i hl
      split at h
      · cases h
      · split at h
        · rename_i b e hb
          cases h
          cases hs : splitEq w with
          | none => simp [hs] at hb
          | some q =>
            obtain ⟨p, e'⟩ := q
            simp only [hs, Option.bind_some, Option.map_eq_some_iff, Prod.mk.injEq] at hb
            obtain ⟨b, h2, rfl, rfl⟩ := hb
            exact .inr (.inr ⟨p, e', rfl, (splitEq_some hs).1, .inl (lookup_some h2)⟩)
        · rename_i hb
          split at h
          · cases h
          · rename_i b y hc
            cases h
            match w, h1 with
            | [], h1 => simp at h1
            | [d], _ => simp at *
            | d :: d' :: cs, h1 =>
              have hd : d = '-' := by simpa using h1
              subst hd
              by_cases hd' : d' = '-'
              · subst hd'
                have hcs : cs ≠ [] := by rintro rfl; exact hw rfl
                obtain ⟨c, cs, rfl⟩ := List.exists_cons_of_ne_nil hcs
                rw [candidates_long, filterMap_ite] at hc
                obtain ⟨n, hf, hn⟩ := List.map_eq_singleton_iff.1 hc
                simp only [Prod.mk.injEq] at hn
                obtain ⟨hn1, hn2⟩ := hn
                have hmem : n ∈ names.filter (fun n => (('-' :: '-' :: c :: cs).takeWhile (· ≠ '=')).isPrefixOf n.1) := by rw [hf]; simp
                have hu : ∀ m ∈ names, (('-' :: '-' :: c :: cs).takeWhile (· ≠ '=')) <+: m.1 → m.1 = n.1 := by
                  intro m hm hp
                  have : m ∈ names.filter (fun n => (('-' :: '-' :: c :: cs).takeWhile (· ≠ '=')).isPrefixOf n.1) :=
                    List.mem_filter.2 ⟨hm, by simpa using hp⟩
                  rw [hf] at this
                  rw [List.mem_singleton.1 this]
                obtain ⟨hm1, hm2⟩ := List.mem_filter.1 hmem
                have hm2 : (('-' :: '-' :: c :: cs).takeWhile (· ≠ '=')) <+: n.1 := by simpa using hm2
                have hna : (n.1, a) ∈ names := by rw [← hn1]; exact hm1
                cases hs : splitEq ('-' :: '-' :: c :: cs) with
                | none =>
                  have hne := splitEq_none.1 hs
                  rw [takeWhile_eq_self hne] at hm2 hu
                  refine .inr (.inl ⟨?_, .inr ⟨lookup_none.1 hl, ⟨c, cs, rfl⟩, hne, n.1, hna, hm2, hu⟩⟩)
                  rw [← hn2, hs]; rfl
                | some q =>
                  obtain ⟨p, e⟩ := q
                  obtain ⟨hp1, hp2⟩ := splitEq_some hs
                  rw [takeWhile_eq_of_splitEq hs] at hm2 hu
                  by_cases hpp : p = ['-', '-']
                  · left
                    have := hu _ g.help (by rw [hpp]; exact ⟨['h', 'e', 'l', 'p'], by decide⟩)
                    exact ⟨false, g.unique (w := n.1) hna (this ▸ g.help)⟩
                  refine .inr (.inr ⟨p, e, ?_, hp1, ?_⟩)
                  · rw [← hn2, hs]; rfl
                  · by_cases hex : ∃ b, (p, b) ∈ names
                    · obtain ⟨b, hb'⟩ := hex
                      rw [hs] at hb
                      simp only [Option.bind_some, g.lookup hb'] at hb
                      simp at hb
                    · push Not at hex
                      refine .inr ⟨hex, ?_, hp2, n.1, hna, hm2, hu⟩
                      match p, hp1, hb with
                      | [], hp1, _ => simp at hp1
                      | [x], hp1, _ => simp at hp1
                      | [x, y], hp1, _ =>
                        simp only [List.cons_append, List.nil_append, List.cons.injEq] at hp1
                        obtain ⟨rfl, rfl, -⟩ := hp1
                        exact absurd rfl hpp
                      | x :: y :: z :: r, hp1, _ =>
                        simp only [List.cons_append, List.cons.injEq] at hp1
                        obtain ⟨rfl, rfl, -⟩ := hp1
                        exact ⟨z, r, rfl⟩
              · left
                have : candidates names ('-' :: d' :: cs) = names.filterMap (fun n => if n.1 = ['-', d'] then some (n.2, some cs)
                    else if ('-' :: d' :: cs).isPrefixOf n.1 then some (n.2, none) else none) := by
                  unfold candidates
                  split
                  · rename_i h; simp at h; exact absurd h.1 hd'
                  · rfl
                have hm : (a, x) ∈ candidates names ('-' :: d' :: cs) := by rw [hc]; simp
                rw [this, List.mem_filterMap] at hm
                obtain ⟨n, hn, hn'⟩ := hm
                rcases g.shape _ hn with ⟨h, h'⟩ | ⟨c, cs', h⟩
                · split at hn'
                  · cases hn'; exact ⟨true, h'⟩
                  · split at hn'
                    · cases hn'; exact ⟨true, h'⟩
                    · cases hn'
                · rw [h] at hn'
                  simp [hd'] at hn'
          · split at h <;> cases h


/-- what a name of an option looks like -/
theorem Names.shape (g : GoodNames names) (h : Names names w a) (ha : ∀ s, a ≠ .help s) : (∃ c cs, w = '-' :: '-' :: c :: cs) ∧ '=' ∉ w := by
  rcases h with h | ⟨-, h1, h2, -⟩
  · rcases g.shape _ h with ⟨-, h'⟩ | h'
    · exact absurd h' (ha true)
    · exact ⟨h', g.noEq _ h⟩
  · exact ⟨h1, h2⟩

theorem classify_names (g : GoodNames names) (h : Names names w a) (ha : ∀ s, a ≠ .help s) : classify names w = .option a none := by
  obtain ⟨⟨c, cs, hw⟩, hne⟩ := h.shape g ha
  unfold classify
  rw [if_neg (by rw [hw]; simp)]
  rcases h with h | ⟨h1, -, -, name, h2, h3, h4⟩
  · rw [g.lookup h]
  · rw [lookup_none.2 h1]
    simp only
    rw [if_neg (by rw [hw]; simp), splitEq_none.2 hne]
    simp only [Option.bind_none]
    have : candidates names w = [(a, none)] := by
      have hs := splitEq_none.2 hne
      rw [← takeWhile_eq_self hne] at h3 h4
      subst hw
      rw [candidates_eq g h2 h3 h4, hs]; rfl
    rw [this]

theorem classify_equals (g : GoodNames names) (h : Names names w a) (ha : ∀ s, a ≠ .help s) : classify names (w ++ '=' :: t) = .option a (some t) := by
  obtain ⟨⟨c, cs, hw⟩, hne⟩ := h.shape g ha
  unfold classify
  rw [if_neg (by rw [hw]; simp), lookup_none.2 (fun b hb => g.noEq _ hb (by simp))]
  simp only
  rw [if_neg (by rw [hw]; simp), splitEq_append hne]
  rcases h with h | ⟨h1, -, -, name, h2, h3, h4⟩
  · simp only [Option.bind_some, g.lookup h, Option.map_some]
  · simp only [Option.bind_some, lookup_none.2 h1, Option.map_none]
    have : candidates names (w ++ '=' :: t) = [(a, some t)] := by
      have hs := splitEq_append (e := t) hne
      have ht := takeWhile_eq_of_splitEq hs
      rw [hw] at hs ht h3 h4 ⊢
      rw [show '-' :: '-' :: c :: cs ++ '=' :: t = '-' :: '-' :: c :: (cs ++ '=' :: t) from rfl] at hs ht ⊢
      rw [candidates_eq g h2 (by rw [ht]; exact h3) (by rw [ht]; exact h4), hs]; rfl
    rw [this]

/-! ### Values -/

theorem count_some {k : Nargs} {n c : Nat} (h : k.count n = some c) (hc : n ≤ c) : k.Allows n ∧ c = n := by
  cases k with
  | star => exact ⟨trivial, (Option.some.inj h).symm⟩
  | optional =>
    have := Option.some.inj h
    show n ≤ 1 ∧ c = n
    omega
  | single =>
    simp only [Nargs.count] at h
    split at h
    · have := Option.some.inj h
      show n = 1 ∧ c = n
      omega
    · cases h
  | plus =>
    simp only [Nargs.count] at h
    split at h
    · have := Option.some.inj h
      show 1 ≤ n ∧ c = n
      omega
    · cases h
  | exactly m =>
    simp only [Nargs.count] at h
    split at h
    · have := Option.some.inj h
      show n = m ∧ c = n
      omega
    · cases h

theorem count_of_allows {k : Nargs} {n : Nat} (h : k.Allows n) : k.count n = some n := by
  cases k with
  | star => rfl
  | optional => exact congrArg some (Nat.min_eq_right h)
  | single => obtain rfl : n = 1 := h; rfl
  | plus => exact if_pos h
  | exactly m => obtain rfl : n = m := h; exact if_pos le_rfl

theorem convert_iff {k : Kind} {b : Atom} : k.convert R t = some b ↔ k.Means R t b := by
  cases k with
  | str => simp [Kind.convert, Kind.Means, eq_comm]
  | lower => simp [Kind.convert, Kind.Means, eq_comm]
  | int => cases h : R.int t <;> simp [Kind.convert, Kind.Means, h, eq_comm]
  | float => cases h : R.float t <;> simp [Kind.convert, Kind.Means, h, eq_comm]
  | positiveInt =>
    cases h : R.int t with
    | none => simp [Kind.convert, Kind.Means, h, RSE.positiveInt]
    | some i => by_cases hi : i ≤ 0 <;> simp [Kind.convert, Kind.Means, h, RSE.positiveInt, hi, eq_comm (a := b)]; intro _; omega
  | nonNegativeInt =>
    cases h : R.int t with
    | none => simp [Kind.convert, Kind.Means, h, RSE.nonNegativeInt]
    | some i => by_cases hi : i < 0 <;> simp [Kind.convert, Kind.Means, h, RSE.nonNegativeInt, hi, eq_comm (a := b)]; intro _; omega
  | positiveFloat =>
    cases h : R.float t with
    | none => simp [Kind.convert, Kind.Means, h, RSE.positiveFloat]
    | some x => cases hx : x.le 0 <;> simp [Kind.convert, Kind.Means, h, RSE.positiveFloat, hx, eq_comm (a := b)]
  | nonNegativeFloat =>
    cases h : R.float t with
    | none => simp [Kind.convert, Kind.Means, h, RSE.nonNegativeFloat]
    | some x => cases hx : x.lt 0 <;> simp [Kind.convert, Kind.Means, h, RSE.nonNegativeFloat, hx, eq_comm (a := b)]
  | fraction =>
    cases h : R.float t with
    | none => simp [Kind.convert, Kind.Means, h, RSE.fraction]
    | some x => cases hx : x.lt 0 <;> cases hy : x.gt 1 <;> simp [Kind.convert, Kind.Means, h, RSE.fraction, hx, hy, eq_comm (a := b)]

theorem accept_iff {o : Opt} {b : Atom} : o.accept R t = some b ↔ o.Means R t b := by
  unfold Opt.accept Opt.Means
  rw [Option.bind_eq_some_iff]
  constructor
  · rintro ⟨c, h1, h2⟩
    rw [convert_iff] at h1
    split at h2
    · rename_i l hl
      split at h2
      · rename_i hm
        obtain rfl := Option.some.inj h2
        exact ⟨h1, fun l' hl' => by rw [hl] at hl'; obtain rfl := Option.some.inj hl'; exact hm⟩
      · cases h2
    · rename_i hl
      obtain rfl := Option.some.inj h2
      exact ⟨h1, fun l' hl' => by rw [hl] at hl'; cases hl'⟩
  · rintro ⟨h1, h2⟩
    refine ⟨b, convert_iff.2 h1, ?_⟩
    split
    · rename_i l hl; rw [if_pos (h2 l hl)]
    · rfl

theorem mapM_iff {α β : Type} {f : α → Option β} : ∀ {l : List α} {r : List β}, l.mapM f = some r ↔ List.Forall₂ (fun x y => f x = some y) l r
  | [], r => by simp [eq_comm]
  | x :: t, r => by
    rw [List.mapM_cons]
    cases hx : f x with
    | none => simp [List.forall₂_cons_left_iff, hx]
    | some y =>
      cases ht : t.mapM f with
      | none =>
        simp only [Option.bind_eq_bind, Option.bind_some, Option.bind_none, reduceCtorEq, false_iff, List.forall₂_cons_left_iff, hx, Option.some.injEq, not_exists, not_and]
        rintro b u - h -
        rw [← mapM_iff, ht] at h
        cases h
      | some u =>
        simp only [Option.bind_eq_bind, Option.bind_some, Option.pure_def, Option.some.injEq, List.forall₂_cons_left_iff, hx]
        constructor
        · rintro rfl; exact ⟨y, u, rfl, mapM_iff.1 ht, rfl⟩
        · rintro ⟨b, u', rfl, h, rfl⟩
          rw [← mapM_iff, ht] at h
          obtain rfl := Option.some.inj h; rfl

theorem value_iff {o : Opt} {ts : List Text} {v : Value} (h : o.nargs.Allows ts.length) : o.value R ts = some v ↔ o.Gives R ts v := by
  have hlist : o.nargs ≠ .optional → o.nargs ≠ .single → ((ts.mapM (o.accept R)).map ArgValue.list = some v ↔ o.Gives R ts v) := by
    intro h1 h2
    simp only [Opt.Gives, h1, h2, false_and, false_or, or_self, ne_eq, not_false_eq_true, true_and, Option.map_eq_some_iff, mapM_iff, accept_iff, eq_comm (a := v)]
  have hone : (o.nargs = .optional ∨ o.nargs = .single) → ∀ t, ts = [t] → ((o.accept R t).map ArgValue.one = some v ↔ o.Gives R ts v) := by
    rintro h1 t rfl
    have h2 : ¬ (o.nargs ≠ .optional ∧ o.nargs ≠ .single ∧ ∃ as, List.Forall₂ (o.Means R) [t] as ∧ v = .list as) := by
      rintro ⟨h3, h4, -⟩; rcases h1 with h | h <;> contradiction
    simp only [Opt.Gives, List.cons_ne_nil, false_and, and_false, false_or, h1, true_and, h2, or_false, Option.map_eq_some_iff, accept_iff]
    constructor
    · rintro ⟨b, hb, rfl⟩; exact ⟨t, b, rfl, hb, rfl⟩
    · rintro ⟨t', b, ht, hb, rfl⟩
      obtain rfl := (List.cons.inj ht).1
      exact ⟨b, hb, rfl⟩
  unfold Opt.value
  cases hk : o.nargs with
  | optional =>
    rw [hk] at h
    match ts, h with
    | [], _ => simp [Opt.Gives, hk, eq_comm]
    | [t], _ => exact hone (.inl hk) t rfl
    | _ :: _ :: _, h => simp [Nargs.Allows] at h
  | single =>
    rw [hk] at h
    match ts, h with
    | [t], _ => exact hone (.inr hk) t rfl
  | star => exact hlist (by simp [hk]) (by simp [hk])
  | plus => exact hlist (by simp [hk]) (by simp [hk])
  | exactly m => exact hlist (by simp [hk]) (by simp [hk])

/-! ### Groups -/

/-- the values given by settings -/
def settle (ns : Given) (gs : List Setting) : Given := gs.foldl (fun ns s => Function.update ns s.2.1 (some s.2.2)) ns

theorem consumeAll_true : ∀ {gs : List Group} {ns ns' : Given} {left : Bool}, consumeAll R ns true gs = .ok (ns', left) → left = true
  | [], _, _, _, h => by
    simp only [consumeAll, Except.ok.injEq, Prod.mk.injEq] at h
    exact h.2.symm
  | g :: gs, ns, _, _, h => by
    simp only [consumeAll, bind, Except.bind] at h
    split at h
    · cases h
    · exact consumeAll_true h

theorem consume_option {g : Option (Act × Option Text)} {a : Act} {x : Option Text} {l : List Text} {ns ns' : Given} (hg : g = some (a, x)) (h : consume R ns (g, l) = .ok (ns', false)) :
    (∃ o v, a = .set o ∧ x = none ∧ o.nargs.Allows l.length ∧ o.Gives R l v ∧ ns' = Function.update ns o.dest (some v)) ∨
      (∃ o e v, a = .set o ∧ x = some e ∧ l = [] ∧ o.nargs.Allows 1 ∧ o.Gives R [e] v ∧ ns' = Function.update ns o.dest (some v)) ∨
      ∃ d b, a = .switch d b ∧ x = none ∧ l = [] ∧ ns' = Function.update ns d (some (.one (.bool b))) := by
  subst hg
  match a, x with
  | .help _, none => simp [consume] at h
  | .help _, some _ => simp [consume] at h
  | .switch d b, none =>
    simp only [consume, Except.ok.injEq, Prod.mk.injEq, decide_eq_false_iff_not, not_not] at h
    exact .inr (.inr ⟨d, b, rfl, rfl, by simpa using h.2, h.1.symm⟩)
  | .switch _ _, some _ => simp [consume] at h
  | .set o, some e =>
    simp only [consume] at h
    split at h
    · rename_i hc
      split at h
      · rename_i v hv
        simp only [Except.ok.injEq, Prod.mk.injEq] at h
        have ha := (count_some hc le_rfl).1
        exact .inr (.inl ⟨o, e, v, rfl, rfl, by simpa using h.2, ha, (value_iff (ts := [e]) ha).1 hv, h.1.symm⟩)
      · cases h
    · cases h
  | .set o, none =>
    simp only [consume] at h
    split at h
    · cases h
    · rename_i c hc
      split at h
      · rename_i v hv
        simp only [Except.ok.injEq, Prod.mk.injEq] at h
        have hd : l.length ≤ c := by simpa using h.2
        obtain ⟨ha, rfl⟩ := count_some hc hd
        rw [List.take_length] at hv
        exact .inl ⟨o, v, rfl, rfl, ha, (value_iff ha).1 hv, h.1.symm⟩
      · cases h

theorem consume_values {o : Opt} {l : List Text} {v : Value} (ns : Given) (ha : o.nargs.Allows l.length) (hv : o.Gives R l v) :
    consume R ns (some (.set o, none), l) = .ok (Function.update ns o.dest (some v), false) := by
  simp only [consume, count_of_allows ha, List.take_length, (value_iff ha).2 hv, List.drop_length]
  simp

theorem consume_equals {o : Opt} {e : Text} {v : Value} (ns : Given) (ha : o.nargs.Allows 1) (hv : o.Gives R [e] v) :
    consume R ns (some (.set o, some e), []) = .ok (Function.update ns o.dest (some v), false) := by
  simp only [consume, count_of_allows ha, if_true, (value_iff (ts := [e]) ha).2 hv]
  simp

theorem settings_of_words (g : GoodNames names) : ∀ {ws : List Text} {ns ns' : Given} {left : Bool}, (classifyAll names ws).any isAmbiguous = false →
    consumeAll R ns left (grouped (classifyAll names ws)).2 = .ok (ns', false) →
      left = false ∧ (∀ t ∈ (grouped (classifyAll names ws)).1, Plain names t) ∧
        ∃ gs : List Setting, ws = (grouped (classifyAll names ws)).1 ++ (gs.map Prod.fst).flatten ∧ (∀ s ∈ gs, Sets R names s.1 s.2.1 s.2.2) ∧ ns' = settle ns gs
  | [], ns, ns', left, _, h => by
    simp only [classifyAll, grouped, consumeAll, Except.ok.injEq, Prod.mk.injEq] at h
    exact ⟨h.2, by simp [classifyAll, grouped], [], by simp [classifyAll, grouped], by simp, h.1.symm⟩
  | w :: ws, ns, ns', left, hamb, h => by
    have hfalse : ∀ {l : List Text} {gs : List Group}, consumeAll R ns left ((none, l) :: gs) ≠ .ok (ns', false) := by
      intro l gs h
      simp only [consumeAll, consume, bind, Except.bind, Bool.or_true] at h
      exact absurd (consumeAll_true h) (by simp)
    by_cases hw : w = ['-', '-']
    · subst hw
      simp only [classifyAll, if_true, grouped] at h
      exact absurd h hfalse
    · simp only [classifyAll, if_neg hw, List.any_cons, Bool.or_eq_false_iff] at hamb
      simp only [classifyAll, if_neg hw] at h ⊢
      cases hc : classify names w with
      | unknown => rw [hc] at h; exact absurd h hfalse
      | ambiguous => rw [hc] at hamb; simp [isAmbiguous] at hamb
      | value t =>
        obtain ⟨rfl, hp⟩ := classify_value g hw hc
        rw [hc] at h
        simp only [grouped] at h ⊢
        obtain ⟨h1, h2, gs, h3, h4, h5⟩ := settings_of_words g hamb.2 h
        refine ⟨h1, ?_, gs, ?_, h4, h5⟩
        · intro u hu
          rcases List.mem_cons.1 hu with rfl | hu
          · exact hp
          · exact h2 u hu
        · rw [List.cons_append, ← h3]
      | option a x =>
        rw [hc] at h
        simp only [grouped, consumeAll, bind, Except.bind] at h ⊢
        split at h
        · cases h
        · rename_i r hr
          obtain ⟨ns1, b⟩ := r
          obtain ⟨h1, h2, gs, h3, h4, h5⟩ := settings_of_words g hamb.2 h
          simp only [Bool.or_eq_false_iff] at h1
          obtain ⟨rfl, rfl⟩ := h1
          have ho := classify_option g hw hc
          refine ⟨rfl, by simp, ?_⟩
          rcases consume_option rfl hr with ⟨o, v, rfl, rfl, i1, i2, rfl⟩ | ⟨o, e, v, rfl, rfl, i0, i1, i2, rfl⟩ | ⟨d, b, rfl, rfl, i0, rfl⟩
          · rcases ho with ⟨s, hs⟩ | ⟨-, hn⟩ | ⟨w', e, he, -⟩
            · cases hs
            · refine ⟨(w :: (grouped (classifyAll names ws)).1, o.dest, v) :: gs, ?_, ?_, h5⟩
              · simp only [List.nil_append, List.map_cons, List.flatten_cons, List.cons_append]
                rw [← h3]
              · intro s hs
                rcases List.mem_cons.1 hs with rfl | hs
                · exact .values hn h2 i1 i2
                · exact h4 s hs
            · cases he
          · rcases ho with ⟨s, hs⟩ | ⟨hx, -⟩ | ⟨w', e', he, rfl, hn⟩
            · cases hs
            · cases hx
            · obtain rfl := Option.some.inj he
              refine ⟨([w' ++ '=' :: e], o.dest, v) :: gs, ?_, ?_, h5⟩
              · simp only [List.nil_append, List.map_cons, List.flatten_cons, List.cons_append]
                rw [i0, List.nil_append] at h3
                rw [← h3]
              · intro s hs
                rcases List.mem_cons.1 hs with rfl | hs
                · exact .equals hn i1 i2
                · exact h4 s hs
          · rcases ho with ⟨s, hs⟩ | ⟨-, hn⟩ | ⟨w', e, he, -⟩
            · cases hs
            · refine ⟨([w], d, .one (.bool b)) :: gs, ?_, ?_, h5⟩
              · simp only [List.nil_append, List.map_cons, List.flatten_cons, List.cons_append]
                rw [i0, List.nil_append] at h3
                rw [← h3]
              · intro s hs
                rcases List.mem_cons.1 hs with rfl | hs
                · exact .switch hn
                · exact h4 s hs
            · cases he

theorem Plain.ne (h : Plain names w) : w ≠ ['-', '-'] := by
  rintro rfl
  rcases h with h | h | ⟨h, -⟩
  · simp at h
  · simp at h
  · rcases h with (⟨ds, h1, h2, h3⟩ | ⟨ds, es, h1, h2, h3, h4⟩) | h
    · obtain rfl := (List.cons.inj h1).2
      have := h3 '-' (by simp)
      revert this; decide
    · have h5 := (List.cons.inj h1).2
      match ds, h5 with
      | [], h5 => simp at h5
      | d :: ds, h5 => simp at h5
    · simp at h

theorem classifyAll_plain (g : GoodNames names) : ∀ {ts ws : List Text}, (∀ t ∈ ts, Plain names t) → classifyAll names (ts ++ ws) = ts.map .value ++ classifyAll names ws
  | [], _, _ => rfl
  | t :: ts, ws, h => by
    have h1 := h t (by simp)
    simp only [List.cons_append, classifyAll, if_neg (h1.ne), classify_plain g h1, List.map_cons]
    rw [classifyAll_plain g (fun u hu => h u (by simp [hu]))]

theorem grouped_values : ∀ {ts : List Text} {l : List Word}, grouped (ts.map .value ++ l) = (ts ++ (grouped l).1, (grouped l).2)
  | [], _ => rfl
  | t :: ts, l => by simp only [List.map_cons, List.cons_append, grouped, grouped_values]

theorem any_values (ts : List Text) (l : List Word) : (ts.map Word.value ++ l).any isAmbiguous = l.any isAmbiguous := by
  induction ts with
  | nil => rfl
  | cons t ts ih => simp [isAmbiguous]

theorem words_of_settings (g : GoodNames names) : ∀ {gs : List Setting} {ns : Given}, (∀ s ∈ gs, Sets R names s.1 s.2.1 s.2.2) →
    (classifyAll names (gs.map Prod.fst).flatten).any isAmbiguous = false ∧ (grouped (classifyAll names (gs.map Prod.fst).flatten)).1 = [] ∧
      consumeAll R ns false (grouped (classifyAll names (gs.map Prod.fst).flatten)).2 = .ok (settle ns gs, false)
  | [], _, _ => ⟨rfl, rfl, rfl⟩
  | (l, d, v) :: gs, ns, h => by
    have hs := h _ (List.mem_cons_self)
    have ih := fun ns => words_of_settings (ns := ns) g (fun s hs => h s (List.mem_cons_of_mem _ hs))
    simp only [List.map_cons, List.flatten_cons]
    simp only at hs
    cases hs with
    | @values w o ts _ hw hp hn hv =>
      have hc := classify_names g hw (by simp)
      have hw2 : w ≠ ['-', '-'] := by
        obtain ⟨⟨c, cs, rfl⟩, -⟩ := hw.shape g (by simp)
        simp
      simp only [List.cons_append, classifyAll, if_neg hw2, hc, classifyAll_plain g hp, grouped, grouped_values, (ih ns).2.1, List.append_nil, List.any_cons, any_values, (ih ns).1, consumeAll,
        consume_values ns hn hv, bind, Except.bind, Bool.or_false]
      exact ⟨rfl, trivial, (ih _).2.2⟩
    | @equals w o t _ hw hn hv =>
      have hc := classify_equals (t := t) g hw (by simp)
      have hw2 : w ++ '=' :: t ≠ ['-', '-'] := by
        obtain ⟨⟨c, cs, rfl⟩, -⟩ := hw.shape g (by simp)
        simp
      simp only [List.cons_append, List.nil_append, classifyAll, if_neg hw2, hc, grouped, (ih ns).2.1, List.any_cons, (ih ns).1, consumeAll,
        consume_equals ns hn hv, bind, Except.bind, Bool.or_false]
      exact ⟨rfl, trivial, (ih _).2.2⟩
    | @switch w d b hw =>
      have hc := classify_names g hw (by simp)
      have hw2 : w ≠ ['-', '-'] := by
        obtain ⟨⟨c, cs, rfl⟩, -⟩ := hw.shape g (by simp)
        simp
      simp only [List.cons_append, List.nil_append, classifyAll, if_neg hw2, hc, grouped, (ih ns).2.1, List.any_cons, (ih ns).1, consumeAll,
        consume, bind, Except.bind, Bool.or_false, ne_eq, not_true_eq_false, decide_false]
      exact ⟨rfl, trivial, (ih _).2.2⟩

/-! ### The namespace -/

theorem settle_apply : ∀ {gs : List Setting} {ns : Given} {d : String}, settle ns gs d = ((gs.filter (fun s => s.2.1 = d)).getLast?.map (fun s => s.2.2)).or (ns d) := by
  intro gs
  induction gs using List.reverseRecOn with
  | nil => intro ns d; simp [settle]
  | append_singleton gs s ih =>
    intro ns d
    simp only [settle, List.foldl_append, List.foldl_cons, List.foldl_nil, Function.update_apply, List.filter_append, List.filter_cons, List.filter_nil]
    by_cases hd : s.2.1 = d
    · simp [hd]
    · have := ih (ns := ns) (d := d)
      simp only [settle] at this
      simp [hd, Ne.symm hd, this]

theorem defaultValue_eq {table : List Entry} (h : Table table) {o : Opt} (ho : Entry.opt o ∈ table) : o.defaultValue R = some o.default := by
  unfold Opt.defaultValue
  split
  · rename_i t ht
    rcases h.defaults o ho t ht with hk | ⟨hk, hl⟩
    · simp [Kind.convert, hk, ht]
    · simp [Kind.convert, hk, ht, hl]
  · rfl

theorem finalValue_eq (gs : List Setting) (e : Entry) : finalValue gs e = (settle (fun _ => none) gs e.dest).getD e.initial := by
  rw [settle_apply, Option.or_none, finalValue]

theorem attribute_eq {table : List Entry} (h : Table table) {e : Entry} (he : e ∈ table) (gs : List Setting) :
    e.attribute R (settle (fun _ => none) gs) = some (e.dest, finalValue gs e) := by
  rw [finalValue_eq]
  cases e with
  | opt o =>
    simp only [Entry.attribute, Entry.dest, Entry.initial]
    cases settle (fun _ => none) gs o.dest with
    | none => simp [defaultValue_eq h he]
    | some v => simp
  | switch d b => rfl

theorem attributes_eq {table : List Entry} (h : Table table) (gs : List Setting) :
    table.mapM (Entry.attribute R (settle (fun _ => none) gs)) = some (table.map (fun e => (e.dest, finalValue gs e))) := by
  rw [mapM_iff]
  have : ∀ l : List Entry, l ⊆ table → List.Forall₂ (fun x y => Entry.attribute R (settle (fun _ => none) gs) x = some y) l (l.map (fun e => (e.dest, finalValue gs e))) := by
    intro l
    induction l with
    | nil => intro _; exact .nil
    | cons e l ih => intro hl; exact .cons (attribute_eq h (hl (by simp)) gs) (ih (fun x hx => hl (by simp [hx])))
  exact this table (fun _ hx => hx)

/-! ### What an accepted command line says about an option -/

theorem opt_mem {table : List Entry} {name : Text} {o : Opt} (h : (name, Act.set o) ∈ optionStrings table) : Entry.opt o ∈ table := by
  simp only [optionStrings, List.mem_cons, List.mem_flatMap, Prod.mk.injEq, reduceCtorEq, and_false, false_or] at h
  obtain ⟨e, he, hn⟩ := h
  cases e with
  | opt o' =>
    simp only [Entry.names, List.mem_cons, Prod.mk.injEq, Act.set.injEq, List.not_mem_nil, or_false] at hn
    rw [hn.2]; exact he
  | switch d b => simp [Entry.names] at hn

theorem switch_mem {table : List Entry} {name : Text} {d : String} {b : Bool} (h : (name, Act.switch d b) ∈ optionStrings table) : ∃ b', Entry.switch d b' ∈ table := by
  simp only [optionStrings, List.mem_cons, List.mem_flatMap, Prod.mk.injEq, reduceCtorEq, and_false, false_or] at h
  obtain ⟨e, he, hn⟩ := h
  cases e with
  | opt o' => simp [Entry.names] at hn
  | switch d' b' =>
    simp only [Entry.names, List.mem_cons, Prod.mk.injEq, Act.switch.injEq, List.not_mem_nil, or_false] at hn
    rcases hn with ⟨-, rfl, -⟩ | ⟨-, rfl, -⟩ <;> exact ⟨b', he⟩

theorem Names.mem {table : List Entry} (h : Names (optionStrings table) w a) : ∃ name, (name, a) ∈ optionStrings table := by
  rcases h with h | ⟨-, -, -, name, h, -⟩
  · exact ⟨w, h⟩
  · exact ⟨name, h⟩

theorem name_mem {table : List Entry} {o : Opt} (h : Entry.opt o ∈ table) : (long o.dest, Act.set o) ∈ optionStrings table := by
  simp only [optionStrings, List.mem_cons, List.mem_flatMap]
  exact .inr (.inr ⟨_, h, by simp [Entry.names]⟩)

theorem switch_name_mem {table : List Entry} {d : String} {b : Bool} (h : Entry.switch d b ∈ table) :
    (long d, Act.switch d true) ∈ optionStrings table ∧ (longNo d, Act.switch d false) ∈ optionStrings table := by
  simp only [optionStrings, List.mem_cons, List.mem_flatMap]
  exact ⟨.inr (.inr ⟨_, h, by simp [Entry.names]⟩), .inr (.inr ⟨_, h, by simp [Entry.names]⟩)⟩

theorem dest_unique {table : List Entry} (h : Table table) {e f : Entry} (he : e ∈ table) (hf : f ∈ table) (hd : e.dest = f.dest) : e = f :=
  List.inj_on_of_nodup_map h.dests he hf hd

/-- the value of an option is its default or was given -/
theorem finalValue_opt {table : List Entry} (T : Table table) {gs : List Setting} (hs : ∀ s ∈ gs, Sets R (optionStrings table) s.1 s.2.1 s.2.2) {o : Opt}
    (ho : Entry.opt o ∈ table) : finalValue gs (.opt o) = o.default ∨ ∃ ts, o.nargs.Allows ts.length ∧ o.Gives R ts (finalValue gs (.opt o)) := by
  unfold finalValue
  cases hl : (gs.filter (fun s => s.2.1 = (Entry.opt o).dest)).getLast? with
  | none => exact .inl rfl
  | some s =>
    right
    obtain ⟨h1, h2⟩ := List.mem_filter.1 (List.mem_of_getLast? hl)
    have h3 := hs s h1
    obtain ⟨l, d, v⟩ := s
    simp only [decide_eq_true_eq] at h2
    simp only [Option.map_some, Option.getD_some]
    simp only at h3
    cases h3 with
    | @values w o' ts _ hw hp hn hv =>
      obtain ⟨name, hm⟩ := hw.mem
      have := dest_unique T (opt_mem hm) ho h2
      cases this
      exact ⟨ts, hn, hv⟩
    | @equals w o' t _ hw hn hv =>
      obtain ⟨name, hm⟩ := hw.mem
      have := dest_unique T (opt_mem hm) ho h2
      cases this
      exact ⟨[t], hn, hv⟩
    | @switch w _ b hw =>
      obtain ⟨name, hm⟩ := hw.mem
      obtain ⟨b', hb⟩ := switch_mem hm
      have := dest_unique T hb ho h2
      cases this

theorem finalValue_switch {table : List Entry} (T : Table table) {gs : List Setting} (hs : ∀ s ∈ gs, Sets R (optionStrings table) s.1 s.2.1 s.2.2) {d : String} {b : Bool}
    (ho : Entry.switch d b ∈ table) : ∃ c, finalValue gs (.switch d b) = .one (.bool c) := by
  unfold finalValue
  cases hl : (gs.filter (fun s => s.2.1 = (Entry.switch d b).dest)).getLast? with
  | none => exact ⟨b, rfl⟩
  | some s =>
    obtain ⟨h1, h2⟩ := List.mem_filter.1 (List.mem_of_getLast? hl)
    have h3 := hs s h1
    obtain ⟨l, d', v⟩ := s
    simp only [decide_eq_true_eq] at h2
    simp only [Option.map_some, Option.getD_some]
    simp only at h3
    cases h3 with
    | @values w o' ts _ hw hp hn hv =>
      obtain ⟨name, hm⟩ := hw.mem
      cases dest_unique T (opt_mem hm) ho h2
    | @equals w o' t _ hw hn hv =>
      obtain ⟨name, hm⟩ := hw.mem
      cases dest_unique T (opt_mem hm) ho h2
    | @switch w _ c hw => exact ⟨c, rfl⟩

/-- reading a namespace -/
theorem get_namespace {table : List Entry} (T : Table table) (f : Entry → Value) {e : Entry} (he : e ∈ table) :
    ArgDict.get (table.map (fun e => (e.dest, f e))) e.dest = .ok (f e) := by
  have : ∀ l : List Entry, (l.map Entry.dest).Nodup → e ∈ l → ArgDict.get (l.map (fun e => (e.dest, f e))) e.dest = .ok (f e) := by
    intro l hl hm
    induction l with
    | nil => cases hm
    | cons x t ih =>
      unfold ArgDict.get
      rw [List.map_cons, List.find?_cons]
      simp only [List.map_cons, List.nodup_cons] at hl
      rcases List.mem_cons.1 hm with rfl | hm
      · simp
      · have : (x.dest == e.dest) = false := by
          simp only [beq_eq_false_iff_ne]
          intro hx
          exact hl.1 (hx ▸ List.mem_map_of_mem hm)
        simp only [this]
        exact ih hl.2 hm
  exact this table T.dests he

/-! ### Rejected words -/

theorem consumeAll_false {gs : List Group} {g : Group} (hg : g ∈ gs) (h : ∀ ns ns', consume R ns g ≠ .ok (ns', false)) :
    ∀ {ns ns' : Given} {left : Bool}, consumeAll R ns left gs ≠ .ok (ns', false) := by
  induction gs with
  | nil => cases hg
  | cons x t ih =>
    intro ns ns' left hc
    simp only [consumeAll, bind, Except.bind] at hc
    split at hc
    · cases hc
    · rename_i r hr
      rcases List.mem_cons.1 hg with rfl | hg
      · obtain ⟨ns1, b⟩ := r
        cases b with
        | false => exact h _ _ hr
        | true =>
          simp only [Bool.or_true] at hc
          exact absurd (consumeAll_true hc) (by simp)
      · exact ih hg hc

theorem grouped_unknown : ∀ {l : List Word}, Word.unknown ∈ l → ∃ ts, ((none, ts) : Group) ∈ (grouped l).2
  | [], h => by cases h
  | .unknown :: l, _ => ⟨_, by simp only [grouped]; exact List.mem_cons_self⟩
  | .value t :: l, h => by
    obtain ⟨ts, ht⟩ := grouped_unknown ((List.mem_cons.1 h).resolve_left (by simp))
    exact ⟨ts, by simpa only [grouped] using ht⟩
  | .option a x :: l, h => by
    obtain ⟨ts, ht⟩ := grouped_unknown ((List.mem_cons.1 h).resolve_left (by simp))
    exact ⟨ts, by simp only [grouped]; exact List.mem_cons_of_mem _ ht⟩
  | .ambiguous :: l, h => by
    obtain ⟨ts, ht⟩ := grouped_unknown ((List.mem_cons.1 h).resolve_left (by simp))
    exact ⟨ts, by simp only [grouped]; exact List.mem_cons_of_mem _ ht⟩

theorem grouped_option {a : Act} {x : Option Text} {m : List Word} : ∀ {l : List Word}, (some (a, x), (grouped m).1) ∈ (grouped (l ++ .option a x :: m)).2
  | [] => by simp only [List.nil_append, grouped]; exact List.mem_cons_self
  | .unknown :: l => by simp only [List.cons_append, grouped]; exact List.mem_cons_of_mem _ grouped_option
  | .value t :: l => by simp only [List.cons_append, grouped]; exact grouped_option
  | .option a x :: l => by simp only [List.cons_append, grouped]; exact List.mem_cons_of_mem _ grouped_option
  | .ambiguous :: l => by simp only [List.cons_append, grouped]; exact List.mem_cons_of_mem _ grouped_option

theorem classifyAll_append : ∀ {pre rest : List Text}, ['-', '-'] ∉ pre → classifyAll names (pre ++ rest) = pre.map (classify names) ++ classifyAll names rest
  | [], _, _ => rfl
  | w :: pre, rest, h => by
    simp only [List.mem_cons, not_or] at h
    simp only [List.cons_append, classifyAll, if_neg (Ne.symm h.1), List.map_cons, classifyAll_append h.2]

theorem unknown_dashes : ∀ {ws : List Text}, ['-', '-'] ∈ ws → Word.unknown ∈ classifyAll names ws
  | [], h => by cases h
  | w :: ws, h => by
    unfold classifyAll
    split
    · exact List.mem_cons_self
    · rename_i hw
      exact List.mem_cons_of_mem _ (unknown_dashes ((List.mem_cons.1 h).resolve_left (Ne.symm hw)))

theorem parse_unknown {table : List Entry} {ws : List Text} (h : Word.unknown ∈ classifyAll (optionStrings table) ws) (d : ArgDict PyFloat) : parse R table ws ≠ .ok d := by
  intro hp
  unfold parse at hp
  simp only at hp
  split at hp
  · cases hp
  · split at hp
    · cases hp
    · rename_i ns left hc
      split at hp
      · cases left with
        | true => simp at hp
        | false =>
          obtain ⟨ts, ht⟩ := grouped_unknown h
          exact consumeAll_false ht (by simp [consume]) hc
      · cases hp

end RSE.Cmd
