import Verif.Step.Parse
import Mathlib.Data.List.Basic
import Mathlib.Tactic.Tauto

/-! # C108, C109: what is written in STEP syntax is read back -/

set_option linter.unusedSectionVars false

namespace Verif.Step.Parse

variable {α : Type}

/-- An argument in STEP syntax. -/
inductive Arg
  | atom (s : List Char)
  | str (s : List Char)
  | tup (l : List Arg)

mutual
/-- The text of an argument. -/
def Arg.render : Arg → List Char
  | .atom s => s
  | .str s => '\'' :: (s ++ ['\''])
  | .tup l => '(' :: (renderL l ++ [')'])
/-- The text of a list of arguments. -/
def renderL : List Arg → List Char
  | [] => []
  | a :: l => a.render ++ renderT l
/-- The text of the rest of a list. -/
def renderT : List Arg → List Char
  | [] => []
  | a :: l => ',' :: (a.render ++ renderT l)
end

mutual
/-- The value of an argument. -/
def Arg.val (conv : List Char → α) : Arg → Val α
  | .atom s => .atom (conv s)
  | .str s => .str s
  | .tup l => .tup (valL conv l)
/-- The values of a list of arguments. -/
def valL (conv : List Char → α) : List Arg → List (Val α)
  | [] => []
  | a :: l => a.val conv :: valL conv l
end

/-- Characters with a meaning of their own. -/
def Plain (s : List Char) : Prop := ∀ c ∈ s, c ≠ '(' ∧ c ≠ ')' ∧ c ≠ ',' ∧ c ≠ '\'' ∧ c ≠ '"'

mutual
/-- Arguments without surprises: tokens are not empty, without special characters and white space at
the ends; strings have no quotes and, inside a list, no parentheses. -/
def Arg.Ok (ws : Char → Bool) (inList : Bool) : Arg → Prop
  | .atom s => s ≠ [] ∧ Plain s ∧ strip ws s = s
  | .str s => '\'' ∉ s ∧ (inList = true → ∀ c ∈ s, c ≠ '(' ∧ c ≠ ')')
  | .tup l => OkL ws true l
/-- The same for a list. -/
def OkL (ws : Char → Bool) (inList : Bool) : List Arg → Prop
  | [] => True
  | a :: l => a.Ok ws inList ∧ OkL ws inList l
end

/-! ## The matching parenthesis -/

/-- The text has balanced parentheses. -/
def Bal (s : List Char) : Prop :=
  ∀ n t, close (n + 1) (s ++ t) = (close (n + 1) t).map (fun r => (s ++ r.1, r.2))

theorem bal_nil : Bal [] := by
  intro n t
  rw [List.nil_append]
  cases close (n + 1) t <;> simp

theorem bal_append {s t : List Char} (hs : Bal s) (ht : Bal t) : Bal (s ++ t) := by
  intro n u
  rw [List.append_assoc, hs, ht]
  cases close (n + 1) u <;> simp

theorem bal_char {c : Char} (h1 : c ≠ '(') (h2 : c ≠ ')') : Bal [c] := by
  intro n t
  rw [List.singleton_append, close, if_neg h1, if_neg h2]
  rfl

theorem bal_plain {s : List Char} (h : ∀ c ∈ s, c ≠ '(' ∧ c ≠ ')') : Bal s := by
  induction s with
  | nil => exact bal_nil
  | cons c s ih =>
    have := h c (by simp)
    exact bal_append (bal_char this.1 this.2) (ih (fun d hd => h d (by simp [hd])))

theorem bal_paren {s : List Char} (h : Bal s) : Bal ('(' :: (s ++ [')'])) := by
  intro n t
  rw [List.cons_append, close, if_pos rfl, List.append_assoc, h]
  simp only [List.singleton_append]
  rw [close, if_neg (by decide), if_pos rfl, if_neg (by omega)]
  simp only [Nat.add_sub_cancel]
  cases close (n + 1) t <;> simp

theorem close_paren {s : List Char} (h : Bal s) (t : List Char) :
    close 1 (s ++ ')' :: t) = some (s, t) := by
  rw [h 0, close, if_neg (by decide), if_pos rfl, if_pos rfl]
  simp

mutual
theorem bal_render {ws : Char → Bool} : ∀ (a : Arg), a.Ok ws true → Bal a.render
  | .atom s, h => bal_plain (fun c hc => ⟨(h.2.1 c hc).1, (h.2.1 c hc).2.1⟩)
  | .str s, h => by
    rw [Arg.render]
    exact bal_append (s := ['\'']) (bal_char (by decide) (by decide))
      (bal_append (bal_plain (h.2 rfl)) (bal_char (by decide) (by decide)))
  | .tup l, h => by rw [Arg.render]; exact bal_paren (bal_renderL l h)
theorem bal_renderL {ws : Char → Bool} : ∀ (l : List Arg), OkL ws true l → Bal (renderL l)
  | [], _ => by rw [renderL]; exact bal_nil
  | a :: l, h => by rw [renderL]; exact bal_append (bal_render a h.1) (bal_renderT l h.2)
theorem bal_renderT {ws : Char → Bool} : ∀ (l : List Arg), OkL ws true l → Bal (renderT l)
  | [], _ => by rw [renderT]; exact bal_nil
  | a :: l, h => by
    rw [renderT]
    exact bal_append (s := [',']) (bal_char (by decide) (by decide))
      (bal_append (bal_render a h.1) (bal_renderT l h.2))
end

theorem close_len : ∀ (s : List Char) (n : Nat) (a b : List Char), close n s = some (a, b) →
    a.length + b.length < s.length
  | [], n, a, b, h => by simp [close] at h
  | c :: s, n, a, b, h => by
    rw [close] at h
    split_ifs at h
    · rw [Option.map_eq_some_iff] at h
      obtain ⟨⟨x, y⟩, h1, h2⟩ := h
      cases h2
      have := close_len s _ _ _ h1
      simp; omega
    · cases h; simp
    · rw [Option.map_eq_some_iff] at h
      obtain ⟨⟨x, y⟩, h1, h2⟩ := h
      cases h2
      have := close_len s _ _ _ h1
      simp; omega
    · rw [Option.map_eq_some_iff] at h
      obtain ⟨⟨x, y⟩, h1, h2⟩ := h
      cases h2
      have := close_len s _ _ _ h1
      simp; omega

/-! ## Fuel -/

theorem loop_fuel (ws : Char → Bool) (conv : List Char → α) : ∀ (f g : Nat) (s cur : List Char)
    (q : Option Char) (args : List (Val α)), s.length < f → s.length < g →
    loop ws conv f s cur q args = loop ws conv g s cur q args
  | 0, _, _, _, _, _, h, _ => by omega
  | _ + 1, 0, _, _, _, _, _, h => by omega
  | f + 1, g + 1, [], cur, q, args, _, _ => by rw [loop, loop]
  | f + 1, g + 1, c :: s, cur, some q, args, hf, hg => by
    rw [loop, loop]
    exact loop_fuel ws conv f g s _ _ _ (by simp at hf; omega) (by simp at hg; omega)
  | f + 1, g + 1, c :: s, cur, none, args, hf, hg => by
    have hf' : s.length < f := by simp at hf; omega
    have hg' : s.length < g := by simp at hg; omega
    rw [loop, loop]
    split_ifs
    · exact loop_fuel ws conv f g s _ _ _ hf' hg'
    · cases hc : close 1 s with
      | none => rfl
      | some p =>
        obtain ⟨a, b⟩ := p
        have hl := close_len s _ _ _ hc
        dsimp only
        rw [loop_fuel ws conv f g a [] none [] (by omega) (by omega)]
        cases loop ws conv g a [] none [] with
        | error e => rfl
        | ok v => exact loop_fuel ws conv f g b _ _ _ (by omega) (by omega)
    all_goals exact loop_fuel ws conv f g s _ _ _ hf' hg'

/-- The loop with enough fuel. -/
def P (ws : Char → Bool) (conv : List Char → α) (s cur : List Char) (q : Option Char)
    (args : List (Val α)) : Except Err (List (Val α)) := loop ws conv (s.length + 1) s cur q args

theorem no_fuel (ws : Char → Bool) (conv : List Char → α) : ∀ (f : Nat) (s cur : List Char)
    (q : Option Char) (args : List (Val α)), s.length < f →
    loop ws conv f s cur q args ≠ .error .fuel
  | 0, _, _, _, _, h => by omega
  | f + 1, [], cur, q, args, _ => by rw [loop]; simp
  | f + 1, c :: s, cur, some q, args, hf => by
    rw [loop]
    exact no_fuel ws conv f s _ _ _ (by simp at hf; omega)
  | f + 1, c :: s, cur, none, args, hf => by
    have hf' : s.length < f := by simp at hf; omega
    rw [loop]
    split_ifs
    · exact no_fuel ws conv f s _ _ _ hf'
    · cases hc : close 1 s with
      | none => simp
      | some p =>
        obtain ⟨a, b⟩ := p
        have hl := close_len s _ _ _ hc
        have := no_fuel ws conv f a [] none [] (by omega)
        dsimp only
        cases hv : loop ws conv f a [] none [] with
        | error e => rw [hv] at this; simpa using this
        | ok v => exact no_fuel ws conv f b _ _ _ (by omega)
    all_goals exact no_fuel ws conv f s _ _ _ hf'

/-! ## Text without special characters, and quoted text -/

theorem P_plain (ws : Char → Bool) (conv : List Char → α) : ∀ (s t cur : List Char)
    (args : List (Val α)), Plain s → P ws conv (s ++ t) cur none args = P ws conv t (cur ++ s) none args
  | [], t, cur, args, _ => by simp
  | c :: s, t, cur, args, h => by
    obtain ⟨h1, h2, h3, h4, h5⟩ := h c (by simp)
    have ih := P_plain ws conv s t (cur ++ [c]) args (fun d hd => h d (by simp [hd]))
    unfold P at ih ⊢
    rw [List.cons_append, List.length_cons, loop, if_neg (by tauto), if_neg h1, if_neg h3, ih]
    simp

theorem P_quote (ws : Char → Bool) (conv : List Char → α) : ∀ (s t cur : List Char)
    (args : List (Val α)), '\'' ∉ s →
    P ws conv (s ++ '\'' :: t) cur (some '\'') args = P ws conv t (cur ++ s ++ ['\'']) none args
  | [], t, cur, args, _ => by
    unfold P
    rw [List.nil_append, List.length_cons, loop]
    simp
  | c :: s, t, cur, args, h => by
    simp only [List.mem_cons, not_or] at h
    have ih := P_quote ws conv s t (cur ++ [c]) args h.2
    unfold P at ih ⊢
    rw [List.cons_append, List.length_cons, loop, if_neg (Ne.symm h.1), ih]
    simp

theorem P_comma (ws : Char → Bool) (conv : List Char → α) (s cur : List Char)
    (args : List (Val α)) : P ws conv (',' :: s) cur none args =
      P ws conv s (if strip ws cur = [] then cur else []) none (flush ws conv cur args) := by
  unfold P
  rw [List.length_cons, loop, if_neg (by decide), if_neg (by decide), if_pos rfl]

theorem P_paren (ws : Char → Bool) (conv : List Char → α) (s t cur : List Char) (v : List (Val α))
    (args : List (Val α)) (hb : Bal s) (hv : P ws conv s [] none [] = .ok v) :
    P ws conv ('(' :: (s ++ ')' :: t)) cur none args = P ws conv t cur none (args ++ [.tup v]) := by
  unfold P at hv ⊢
  rw [List.length_cons, loop, if_neg (by decide), if_pos rfl, close_paren hb]
  dsimp only
  rw [loop_fuel ws conv _ (s.length + 1) s [] none [] (by simp; omega) (by omega), hv]
  exact loop_fuel ws conv _ _ t _ _ _ (by simp; omega) (by omega)

theorem strip_nil (ws : Char → Bool) : strip ws [] = [] := rfl

theorem strip_quoted (ws : Char → Bool) (hw : ws '\'' = false) (s : List Char) :
    strip ws ('\'' :: (s ++ ['\''])) = '\'' :: (s ++ ['\'']) := by
  unfold strip
  rw [List.dropWhile_cons_of_neg (by simp [hw])]
  have : ('\'' :: (s ++ ['\''])).reverse = '\'' :: (s.reverse ++ ['\'']) := by simp
  rw [this, List.dropWhile_cons_of_neg (by simp [hw]), ← this, List.reverse_reverse]

theorem processTok_quoted (conv : List Char → α) (s : List Char) :
    processTok conv ('\'' :: (s ++ ['\''])) = .str s := by
  unfold processTok
  rw [if_pos]
  · simp
  · left
    refine ⟨rfl, ?_⟩
    rw [← List.cons_append, List.getLast?_append]
    simp

theorem processTok_plain (conv : List Char → α) (s : List Char) (h : Plain s) :
    processTok conv s = .atom (conv s) := by
  unfold processTok
  rw [if_neg]
  rintro (⟨h1, -⟩ | ⟨h1, -⟩)
  · exact (h _ (List.mem_of_mem_head? h1)).2.2.2.1 rfl
  · exact (h _ (List.mem_of_mem_head? h1)).2.2.2.2 rfl

/-- What is left of a list after one of its arguments: a pending token or none. -/
theorem P_nil (ws : Char → Bool) (conv : List Char → α) (cur : List Char) (q : Option Char)
    (args : List (Val α)) : P ws conv [] cur q args = .ok (flush ws conv cur args) := by
  unfold P
  rw [List.length_nil, loop]

/-- After the text of an argument the parser holds its value, at once or when the token ends. -/
def Holds1 (ws : Char → Bool) (conv : List Char → α) (t : List Char) (args : List (Val α)) (v : Val α)
    (r : Except Err (List (Val α))) : Prop :=
  ∃ cur args', r = P ws conv t cur none args' ∧ flush ws conv cur args' = args ++ [v] ∧
    (strip ws cur = [] → cur = [])

mutual
theorem P_arg {ws : Char → Bool} (conv : List Char → α) (hw : ws '\'' = false) :
    ∀ (b : Bool) (a : Arg), a.Ok ws b → ∀ (t : List Char) (args : List (Val α)),
    Holds1 ws conv t args (a.val conv) (P ws conv (a.render ++ t) [] none args)
  | b, .atom s, h, t, args => by
    obtain ⟨h1, h2, h3⟩ := h
    refine ⟨s, args, ?_, ?_, ?_⟩
    · rw [Arg.render, P_plain ws conv s t [] args h2]; rfl
    · rw [flush, h3, if_neg h1, Arg.val, processTok_plain conv s h2]
    · rw [h3]; exact id
  | b, .str s, h, t, args => by
    refine ⟨'\'' :: (s ++ ['\'']), args, ?_, ?_, ?_⟩
    · have := P_quote ws conv s t ['\''] args h.1
      rw [Arg.render]
      have e : '\'' :: (s ++ ['\'']) ++ t = '\'' :: (s ++ '\'' :: t) := by simp
      rw [e]
      have e2 : P ws conv ('\'' :: (s ++ '\'' :: t)) [] none args =
          P ws conv (s ++ '\'' :: t) ['\''] (some '\'') args := by
        unfold P
        rw [List.length_cons, loop, if_pos (Or.inl rfl)]
        rfl
      rw [e2, this]
      simp
    · rw [flush, strip_quoted ws hw, if_neg (by simp), Arg.val, processTok_quoted]
    · rw [strip_quoted ws hw]; simp
  | b, .tup l, h, t, args => by
    refine ⟨[], args ++ [.tup (valL conv l)], ?_, ?_, fun _ => rfl⟩
    · rw [Arg.render]
      have e : '(' :: (renderL l ++ [')']) ++ t = '(' :: (renderL l ++ ')' :: t) := by simp
      rw [e]
      exact P_paren ws conv _ t [] _ args (bal_renderL l h) (by
        have := P_list conv hw true l h []
        simpa using this)
    · rw [flush, strip_nil, if_pos rfl, Arg.val]
theorem P_list {ws : Char → Bool} (conv : List Char → α) (hw : ws '\'' = false) :
    ∀ (b : Bool) (l : List Arg), OkL ws b l → ∀ (args : List (Val α)),
    P ws conv (renderL l) [] none args = .ok (args ++ valL conv l)
  | b, [], _, args => by
    rw [renderL, valL, P_nil, flush, strip_nil, if_pos rfl, List.append_nil]
  | b, a :: l, h, args => by
    obtain ⟨cur, args', e1, e2, e3⟩ := P_arg conv hw b a h.1 (renderT l) args
    rw [renderL, e1, P_rest conv hw b l h.2 cur args' e3, e2, valL]
    simp
theorem P_rest {ws : Char → Bool} (conv : List Char → α) (hw : ws '\'' = false) :
    ∀ (b : Bool) (l : List Arg), OkL ws b l → ∀ (cur : List Char) (args : List (Val α)),
    (strip ws cur = [] → cur = []) →
    P ws conv (renderT l) cur none args = .ok (flush ws conv cur args ++ valL conv l)
  | b, [], _, cur, args, _ => by
    rw [renderT, valL, P_nil, List.append_nil]
  | b, a :: l, h, cur, args, hc => by
    rw [renderT, P_comma]
    have e : (if strip ws cur = [] then cur else []) = [] := by
      split_ifs with c
      · exact hc c
      · rfl
    rw [e]
    obtain ⟨cur', args', e1, e2, e3⟩ := P_arg conv hw b a h.1 (renderT l) (flush ws conv cur args)
    rw [e1, P_rest conv hw b l h.2 cur' args' e3, e2, valL]
    simp
end

/-! ## C108 -/

/-- Every list of arguments, nested to any depth, is read back as written.

`_partial`: not typed parameters, strings with quotes, and strings with parentheses inside lists:
`C108_typed_refuted`, `C108_string_refuted`. -/
theorem C108_arguments_partial (ws : Char → Bool) (conv : List Char → α) (hw : ws '\'' = false)
    (l : List Arg) (h : OkL ws false l) :
    parseArgs ws conv (renderL l) = .ok (valL conv l) := by
  have := P_list conv hw false l h []
  simpa [parseArgs, P] using this

/-- The parser always ends with a list or with the exception for unbalanced parentheses. -/
theorem C108_total (ws : Char → Bool) (conv : List Char → α) (s : List Char) :
    (∃ v, parseArgs ws conv s = .ok v) ∨ parseArgs ws conv s = .error .unbalanced := by
  have gen : ∀ (f : Nat) (s cur : List Char) (q : Option Char) (args : List (Val α)),
      loop ws conv f s cur q args ≠ .error .format := by
    intro f
    induction f with
    | zero => intro s cur q args; rw [loop]; simp
    | succ f ih =>
      intro s cur q args
      cases s with
      | nil => rw [loop]; simp
      | cons c s =>
        cases q with
        | some q => rw [loop]; exact ih _ _ _ _
        | none =>
          rw [loop]
          split_ifs
          · exact ih _ _ _ _
          · cases hc : close 1 s with
            | none => simp
            | some p =>
              obtain ⟨a, b⟩ := p
              have h1 := ih a [] none []
              dsimp only
              cases hv : loop ws conv f a [] none [] with
              | error e => rw [hv] at h1; simpa using h1
              | ok v => exact ih _ _ _ _
          all_goals exact ih _ _ _ _
  have h1 := no_fuel ws conv (s.length + 1) s [] none [] (by omega)
  have h2 := gen (s.length + 1) s [] none []
  unfold parseArgs
  cases hr : loop ws conv (s.length + 1) s [] none [] with
  | ok v => exact Or.inl ⟨v, rfl⟩
  | error e =>
    rw [hr] at h1 h2
    cases e with
    | unbalanced => exact Or.inr rfl
    | format => exact absurd rfl h2
    | fuel => exact absurd rfl h1

/-- A typed parameter `NAME(x)` gives two arguments, the list before the name. -/
theorem C108_typed_refuted (ws : Char → Bool) (conv : List Char → α) (n x : List Char) (hn : n ≠ [])
    (pn : Plain n) (sn : strip ws n = n) (hx : x ≠ []) (px : Plain x) (sx : strip ws x = x) :
    parseArgs ws conv (n ++ '(' :: (x ++ [')'])) = .ok [.tup [.atom (conv x)], .atom (conv n)] := by
  show P ws conv _ [] none [] = _
  rw [P_plain ws conv n _ [] [] pn]
  have hv : P ws conv x [] none [] = .ok [.atom (conv x)] := by
    have := P_plain ws conv x [] [] [] px
    rw [List.append_nil] at this
    rw [this, P_nil, List.nil_append, flush, sx, if_neg hx, processTok_plain conv x px]
    rfl
  rw [P_paren ws conv x [] ([] ++ n) _ [] (bal_plain (fun c hc => ⟨(px c hc).1, (px c hc).2.1⟩)) hv,
    P_nil, List.nil_append, flush, sn, if_neg hn, processTok_plain conv n pn]
  rfl

/-- A quote written twice inside a string is not taken for one quote. -/
theorem C108_escape_refuted (conv : List Char → α) :
    parseArgs (· == ' ') conv "'it''s'".toList = .ok [.str "it''s".toList] := rfl

/-- An opening parenthesis in a string in a list is counted: whatever the string has around it, the
line is refused. -/
theorem C108_string_refuted (ws : Char → Bool) (conv : List Char → α) (x y : List Char)
    (hx : ∀ c ∈ x, c ≠ '(' ∧ c ≠ ')') (hy : ∀ c ∈ y, c ≠ '(' ∧ c ≠ ')') :
    parseArgs ws conv (Arg.tup [.str (x ++ '(' :: y)]).render = .error .unbalanced := by
  have e : (Arg.tup [.str (x ++ '(' :: y)]).render =
      '(' :: (('\'' :: x) ++ ('(' :: ((y ++ ['\'']) ++ [')']))) := by
    simp [Arg.render, renderL, renderT]
  rw [e, parseArgs, List.length_cons, loop, if_neg (by decide), if_pos rfl]
  have b1 : Bal ('\'' :: x) := bal_append (s := ['\'']) (bal_char (by decide) (by decide)) (bal_plain hx)
  have b2 : Bal (y ++ ['\'']) := bal_append (bal_plain hy) (bal_char (by decide) (by decide))
  have : close 1 (('\'' :: x) ++ ('(' :: ((y ++ ['\'']) ++ [')']))) = none := by
    rw [b1 0, close, if_pos rfl, b2 1]
    rfl
  rw [this]

/-- An empty argument between two commas is dropped, so that the later arguments change position. -/
theorem C108_empty_refuted (ws : Char → Bool) (conv : List Char → α) (x y : List Char) (hx : x ≠ [])
    (px : Plain x) (sx : strip ws x = x) (hy : y ≠ []) (py : Plain y) (sy : strip ws y = y) :
    parseArgs ws conv (x ++ ',' :: ',' :: y) = .ok [.atom (conv x), .atom (conv y)] := by
  show P ws conv _ [] none [] = _
  rw [P_plain ws conv x _ [] [] px, P_comma, List.nil_append, sx, if_neg hx, P_comma, strip_nil,
    if_pos rfl]
  have := P_plain ws conv y [] [] (flush ws conv [] (flush ws conv x [])) py
  rw [List.append_nil] at this
  rw [this, P_nil, List.nil_append, flush, sy, if_neg hy, processTok_plain conv y py, flush,
    strip_nil, if_pos rfl, flush, sx, if_neg hx, processTok_plain conv x px]
  rfl

/-- A token, a string with a parenthesis, and a nested list: the supposition is met. -/
example : OkL (· == ' ') false [.atom "#12".toList, .str "a(b".toList,
    .tup [.atom "1.5".toList, .tup [], .str "x".toList]] := by
  have p : ∀ s : List Char, s.all (fun c => c != '(' && c != ')' && c != ',' && c != '\'' && c != '"')
      = true → Plain s := by
    intro s h c hc
    have := List.all_eq_true.1 h c hc
    simpa [and_assoc] using this
  refine ⟨⟨by decide, p _ (by decide), by decide⟩, ⟨by decide, by simp⟩, ?_, trivial⟩
  refine ⟨⟨by decide, p _ (by decide), by decide⟩, ?_, ⟨by decide, by simp⟩, trivial⟩
  exact trivial


/-- A typed measure, a string with a parenthesis in a list, and an omitted argument. -/
example (conv : List Char → α) :
    parseArgs (· == ' ') conv "LENGTH_MEASURE(0.001)".toList =
      .ok [.tup [.atom (conv "0.001".toList)], .atom (conv "LENGTH_MEASURE".toList)] ∧
    parseArgs (· == ' ') conv "('part (left')".toList = .error .unbalanced ∧
    parseArgs (· == ' ') conv "#1, ,#2".toList =
      .ok [.atom (conv "#1".toList), .atom (conv "#2".toList)] := ⟨rfl, rfl, rfl⟩

/-! ## C109: instance lines -/

/-- An instance line. -/
def line (d name args : List Char) : List Char :=
  '#' :: (d ++ '=' :: (name ++ '(' :: (args ++ [')', ';'])))

/-- White space is none of the characters of the syntax. -/
structure WsOk (ws : Char → Bool) : Prop where
  hash : ws '#' = false
  eq : ws '=' = false
  paren : ws '(' = false
  semi : ws ';' = false
  quote : ws '\'' = false
  name : ∀ c, isName c = true → ws c = false

theorem strip_line {ws : Char → Bool} (h : WsOk ws) (d name args : List Char) :
    rstripSemi (strip ws (line d name args)) =
      '#' :: (d ++ '=' :: (name ++ '(' :: (args ++ [')']))) := by
  have e : line d name args = '#' :: (d ++ '=' :: (name ++ '(' :: (args ++ [')']))) ++ [';'] := by
    simp [line]
  have e1 : strip ws (line d name args) = line d name args := by
    unfold strip
    have : (line d name args).dropWhile ws = line d name args := by
      rw [line, List.dropWhile_cons_of_neg (by simp [h.hash])]
    rw [this, e, List.reverse_append, List.reverse_singleton, List.singleton_append,
      List.dropWhile_cons_of_neg (by simp [h.semi]), List.reverse_cons, List.reverse_reverse]
  rw [e1, e]
  unfold rstripSemi
  rw [List.reverse_append, List.reverse_singleton, List.singleton_append,
    List.dropWhile_cons_of_pos (by simp)]
  have : ('#' :: (d ++ '=' :: (name ++ '(' :: (args ++ [')'])))).reverse =
      ')' :: ('#' :: (d ++ '=' :: (name ++ '(' :: args))).reverse := by simp
  rw [this, List.dropWhile_cons_of_neg (by simp), ← this, List.reverse_reverse]

theorem expect_self (c : Char) (s : List Char) : expect c (c :: s) = some s := if_pos rfl

theorem takeWhile_stop {p : Char → Bool} {l : List Char} {c : Char} {t : List Char}
    (h : ∀ x ∈ l, p x = true) (hc : p c = false) : (l ++ c :: t).takeWhile p = l := by
  rw [List.takeWhile_append_of_pos h, List.takeWhile_cons_of_neg (by simp [hc]), List.append_nil]

theorem dropWhile_stop {p : Char → Bool} {l : List Char} {c : Char} {t : List Char}
    (h : ∀ x ∈ l, p x = true) (hc : p c = false) : (l ++ c :: t).dropWhile p = c :: t := by
  rw [List.dropWhile_append_of_pos h, List.dropWhile_cons_of_neg (by simp [hc])]

theorem toLastClose_eq (s : List Char) (h : '\n' ∉ s) : toLastClose (s ++ [')']) = some s := by
  unfold toLastClose
  have : (s ++ [')']).takeWhile (· != '\n') = s ++ [')'] := by
    have := takeWhile_stop (p := (· != '\n')) (l := s ++ [')']) (c := '\n') (t := []) (by
      intro x hx
      rw [List.mem_append, List.mem_singleton] at hx
      rcases hx with hx | rfl
      · simp only [bne_iff_ne, ne_eq]
        rintro rfl
        exact h hx
      · rfl) rfl
    rw [List.takeWhile_append] at this
    split_ifs at this with c
    · exact List.Sublist.eq_of_length (List.takeWhile_sublist _) c
    · exact this
  rw [this, List.reverse_append, List.reverse_singleton, List.singleton_append,
    List.dropWhile_cons_of_neg (by simp)]
  simp

/-- An instance line whose keyword has capital letters and underscores only is read back: the
keyword and the arguments as written, for every list of arguments.

`_partial`: not when the keyword has a digit (`C109_digit_refuted`). -/
theorem C109_line_partial {ws : Char → Bool} (conv : List Char → α) (h : WsOk ws)
    (d name : List Char) (args : List Arg) (hd : d ≠ []) (dd : ∀ c ∈ d, c.isDigit = true)
    (hn : name ≠ []) (nn : ∀ c ∈ name, isName c = true) (ha : OkL ws false args)
    (hl : '\n' ∉ renderL args) :
    parseAssignment ws conv (line d name (renderL args)) = .ok (name, valL conv args) := by
  unfold parseAssignment
  rw [strip_line h]
  have hm : matchAssign ws ('#' :: (d ++ '=' :: (name ++ '(' :: (renderL args ++ [')'])))) =
      some (name, renderL args) := by
    obtain ⟨c, n', rfl⟩ : ∃ c n', name = c :: n' := List.exists_cons_of_ne_nil hn
    have hc : ws c = false := h.name c (nn c (by simp))
    have e1 : ((c :: n') ++ '(' :: (renderL args ++ [')'])).dropWhile ws =
        (c :: n') ++ '(' :: (renderL args ++ [')']) := by
      rw [List.cons_append, List.dropWhile_cons_of_neg (by simp [hc])]
    rw [matchAssign, expect_self, Option.bind_some, takeWhile_stop dd (by decide), dropWhile_stop dd (by decide), if_neg hd,
      List.dropWhile_cons_of_neg (by simp [h.eq]), expect_self, Option.bind_some, e1, takeWhile_stop nn (by decide), dropWhile_stop nn (by decide), if_neg hn,
      List.dropWhile_cons_of_neg (by simp [h.paren]), expect_self, Option.bind_some, toLastClose_eq _ hl]
    rfl
  rw [hm]
  dsimp only
  rw [C108_arguments_partial ws conv h.quote args ha]

/-- A keyword with a digit is refused, whatever the arguments.  The writer itself writes
`AXIS2_PLACEMENT_3D`. -/
theorem C109_digit_refuted {ws : Char → Bool} (conv : List Char → α) (h : WsOk ws)
    (hw : ∀ c, Char.isDigit c = true → ws c = false)
    (d p q args : List Char) (c : Char) (dd : ∀ c ∈ d, c.isDigit = true)
    (pp : ∀ c ∈ p, isName c = true) (hp : p ≠ []) (hc : c.isDigit = true) :
    parseAssignment ws conv (line d (p ++ c :: q) args) = .error .format := by
  unfold parseAssignment
  rw [strip_line h]
  have hcn : isName c = false := by
    have h1 := hc
    simp only [Char.isDigit, Bool.and_eq_true, decide_eq_true_eq] at h1
    unfold isName Char.isUpper
    rw [Bool.or_eq_false_iff]
    constructor
    · simp only [decide_eq_false_iff_not]
      rintro ⟨h2, -⟩
      have := h1.2
      rw [ge_iff_le, UInt32.le_iff_toNat_le] at h2
      rw [UInt32.le_iff_toNat_le] at this
      simp at h2 this
      omega
    · rw [beq_eq_false_iff_ne]
      rintro rfl
      exact absurd hc (by decide)
  have hm : matchAssign ws ('#' :: (d ++ '=' :: ((p ++ c :: q) ++ '(' :: (args ++ [')'])))) =
      none := by
    obtain ⟨a, p', rfl⟩ : ∃ a p', p = a :: p' := List.exists_cons_of_ne_nil hp
    have ha : ws a = false := h.name a (pp a (by simp))
    have e0 : ((a :: p') ++ c :: q) ++ '(' :: (args ++ [')']) =
        (a :: p') ++ c :: (q ++ '(' :: (args ++ [')'])) := by simp
    have e1 : ((a :: p') ++ c :: (q ++ '(' :: (args ++ [')']))).dropWhile ws =
        (a :: p') ++ c :: (q ++ '(' :: (args ++ [')'])) := by
      rw [List.cons_append, List.dropWhile_cons_of_neg (by simp [ha])]
    have hc' : c ≠ '(' := by rintro rfl; exact absurd hc (by decide)
    rw [matchAssign, expect_self, Option.bind_some, takeWhile_stop dd (by decide), dropWhile_stop dd (by decide)]
    split_ifs with hd
    · rfl
    rw [List.dropWhile_cons_of_neg (by simp [h.eq]), expect_self, Option.bind_some, e0, e1, takeWhile_stop pp hcn, dropWhile_stop pp hcn, if_neg hp,
      List.dropWhile_cons_of_neg (by simp [hw c hc]), expect, if_neg hc']
    rfl
  rw [hm]

/-- Space, tab and line ends are such white space, and the line of a point of the writer is read. -/
example : WsOk (fun c => c == ' ' || c == '\t' || c == '\n' || c == '\r') := by
  refine ⟨rfl, rfl, rfl, rfl, rfl, ?_⟩
  intro c hc
  simp only [Bool.or_eq_false_iff, beq_eq_false_iff_ne]
  refine ⟨⟨⟨?_, ?_⟩, ?_⟩, ?_⟩ <;> rintro rfl <;> exact absurd hc (by decide)

example (conv : List Char → α) :
    parseAssignment (· == ' ') conv "  #12 = CARTESIAN_POINT ('p', (1.,-2.5));".toList =
      .ok ("CARTESIAN_POINT".toList,
        [.str "p".toList, .tup [.atom (conv "1.".toList), .atom (conv "-2.5".toList)]]) := rfl

example (conv : List Char → α) :
    parseAssignment (· == ' ') conv "#13=AXIS2_PLACEMENT_3D('',#12,#5,#6);".toList =
      .error .format := rfl

end Verif.Step.Parse
