import Verif.Model.Parse
/-
  Termination of the parser: the depth bound of `parseRaw` is never reached, hence `parseRaw` satisfies the recursive equation
  of the code.
-/
namespace RJ

variable {F : Type}

theorem ite_cc {α : Sort _} {c : Prop} [Decidable c] {a b a' b' : α} (h1 : c → a = a') (h2 : ¬ c → b = b') :
    ite c a b = ite c a' b' := by
  by_cases h : c
  · rw [if_pos h, if_pos h]; exact h1 h
  · rw [if_neg h, if_neg h]; exact h2 h

/-- One round of the array loop. -/
theorem arrLoop_cons (rec : Str → Res (Json F)) (c : Char) (iter : Str) (i j : Int) (inner : Str) (array : List (Json F)) :
    arrLoop rec (c :: iter) i j inner array =
    if c = ']' ∧ i = 0 ∧ j = 0 then
      match rec inner with
      | .error e => .error e
      | .ok v =>
        match skipTrail .ParseArrayError iter with
        | .error e => .error e
        | .ok () => .ok (.array (array ++ [v]))
    else if c = ',' ∧ i = 0 ∧ j = 0 then
      if inner = [] then fail .ParseArrayError "invalid empty element."
      else if iter.head? = some ']' then fail .ParseArrayError "invalid trailing comma."
      else
        match rec inner with
        | .error e => .error e
        | .ok v => arrLoop rec iter i j [] (array ++ [v])
    else if c = '"' then arrLoop rec iter i (quoteStep j) (inner ++ ['"']) array
    else if c = '[' then arrLoop rec iter (i + 1) j (inner ++ ['[']) array
    else if c = ']' then arrLoop rec iter (i - 1) j (inner ++ [']']) array
    else if c = '{' then arrLoop rec iter (i + 1) j (inner ++ ['{']) array
    else if c = '}' then arrLoop rec iter (i - 1) j (inner ++ ['}']) array
    else if c = '\\' then
      match iter with
      | [] => fail .ParseArrayError "missing escaped character."
      | ch :: iter => arrLoop rec iter i j (inner ++ ['\\', ch]) array
    else if i = 0 ∧ j = 0 ∧ isWs c then arrLoop rec iter i j inner array
    else arrLoop rec iter i j (inner ++ [c]) array := by
  rw [arrLoop.eq_def]; rfl

/-- One round of the object loop. -/
theorem objLoop_cons (rec : Str → Res (Json F)) (c : Char) (iter : Str) (i j : Int) (kv : Str × Str) (onKey : Bool) (object : Obj F) :
    objLoop rec (c :: iter) i j kv onKey object =
    if c = '}' ∧ i = 0 ∧ j = 0 ∧ onKey = false then
      match rec kv.1 with
      | .ok (.string key) =>
        match rec kv.2 with
        | .error e => .error e
        | .ok v =>
          match skipTrail .ParseObjectError iter with
          | .error e => .error e
          | .ok () => .ok (.object (objectInsert key v object))
      | _ => fail .ParseObjectError "error parsing key string."
    else if c = ',' ∧ i = 0 ∧ j = 0 ∧ onKey = false then
      if kv.1 = [] ∨ kv.2 = [] then fail .ParseObjectError "invalid empty member."
      else if iter.head? = some '}' then fail .ParseObjectError "invalid trailing comma."
      else
        match rec kv.1 with
        | .ok (.string key) =>
          match rec kv.2 with
          | .error e => .error e
          | .ok v => objLoop rec iter i j ([], []) true (objectInsert key v object)
        | _ => fail .ParseObjectError "error parsing key string."
    else if c = ':' ∧ i = 0 ∧ j = 0 then objLoop rec iter i j kv false object
    else if c = '"' then objLoop rec iter i (quoteStep j) (pushKV onKey kv.1 kv.2 ['"']) onKey object
    else if c = '[' then objLoop rec iter (i + 1) j (pushKV onKey kv.1 kv.2 ['[']) onKey object
    else if c = ']' then objLoop rec iter (i - 1) j (pushKV onKey kv.1 kv.2 [']']) onKey object
    else if c = '{' then objLoop rec iter (i + 1) j (pushKV onKey kv.1 kv.2 ['{']) onKey object
    else if c = '}' then objLoop rec iter (i - 1) j (pushKV onKey kv.1 kv.2 ['}']) onKey object
    else if c = '\\' then
      match iter with
      | [] => fail .ParseObjectError "missing escaped character."
      | ch :: iter => objLoop rec iter i j (pushKV onKey kv.1 kv.2 ['\\', ch]) onKey object
    else if i = 0 ∧ j = 0 ∧ isWs c then objLoop rec iter i j kv onKey object
    else objLoop rec iter i j (pushKV onKey kv.1 kv.2 [c]) onKey object := by
  rw [objLoop.eq_def]; rfl

/-- The array loop calls `rec` only on texts that are no longer than what is left plus what is collected. -/
theorem arrLoop_congr (f g : Str → Res (Json F)) (N : Nat) (hfg : ∀ s, s.length < N → f s = g s) :
    ∀ (n : Nat) (iter : Str) (i j : Int) (inner : Str) (array : List (Json F)),
      iter.length ≤ n → iter.length + inner.length ≤ N →
      arrLoop f iter i j inner array = arrLoop g iter i j inner array := by
  intro n
  induction n with
  | zero =>
    intro iter i j inner array hn _
    cases iter with
    | nil => rfl
    | cons c iter => simp at hn
  | succ n ih =>
    intro iter i j inner array hn hN
    match iter, hn, hN with
    | [], _, _ => rfl
    | c :: iter, hn, hN =>
      simp only [List.length_cons] at hn hN
      rw [arrLoop_cons, arrLoop_cons]
      rw [hfg inner (by omega)]
      split
      · rfl
      split
      · split
        · rfl
        split
        · rfl
        cases g inner with
        | error e => rfl
        | ok v => exact ih _ _ _ _ _ (by omega) (by simp; omega)
      split
      · exact ih _ _ _ _ _ (by omega) (by simp; omega)
      split
      · exact ih _ _ _ _ _ (by omega) (by simp; omega)
      split
      · exact ih _ _ _ _ _ (by omega) (by simp; omega)
      split
      · exact ih _ _ _ _ _ (by omega) (by simp; omega)
      split
      · exact ih _ _ _ _ _ (by omega) (by simp; omega)
      split
      · cases iter with
        | nil => rfl
        | cons ch iter =>
          simp only [List.length_cons] at hn hN
          exact ih _ _ _ _ _ (by omega) (by simp; omega)
      split
      · exact ih _ _ _ _ _ (by omega) (by omega)
      · exact ih _ _ _ _ _ (by omega) (by simp; omega)

theorem pushKV_length (b : Bool) (k v t : Str) :
    (pushKV b k v t).1.length + (pushKV b k v t).2.length = k.length + v.length + t.length := by
  cases b <;> simp [pushKV] <;> omega

theorem objLoop_congr (f g : Str → Res (Json F)) (N : Nat) (hfg : ∀ s, s.length < N → f s = g s) :
    ∀ (n : Nat) (iter : Str) (i j : Int) (kv : Str × Str) (onKey : Bool) (object : Obj F),
      iter.length ≤ n → iter.length + (kv.1.length + kv.2.length) ≤ N →
      objLoop f iter i j kv onKey object = objLoop g iter i j kv onKey object := by
  intro n
  induction n with
  | zero =>
    intro iter i j kv onKey object hn _
    cases iter with
    | nil => rfl
    | cons c iter => simp at hn
  | succ n ih =>
    intro iter i j kv onKey object hn hN
    match iter, hn, hN with
    | [], _, _ => rfl
    | c :: iter, hn, hN =>
      simp only [List.length_cons] at hn hN
      have hp : ∀ (t : Str), t.length ≤ 1 → iter.length +
          ((pushKV onKey kv.1 kv.2 t).1.length + (pushKV onKey kv.1 kv.2 t).2.length) ≤ N := by
        intro t ht; rw [pushKV_length]; omega
      rw [objLoop_cons, objLoop_cons]
      rw [hfg kv.1 (by omega), hfg kv.2 (by omega)]
      refine ite_cc (fun _ => rfl) (fun _ => ?_)
      refine ite_cc (fun _ => ?_) (fun _ => ?_)
      · refine ite_cc (fun _ => rfl) (fun _ => ?_)
        refine ite_cc (fun _ => rfl) (fun _ => ?_)
        cases g kv.1 with
        | error e => rfl
        | ok k =>
          cases k with
          | string key =>
            cases g kv.2 with
            | error e => rfl
            | ok v => exact ih _ _ _ _ _ _ (by omega) (by simp; omega)
          | _ => rfl
      refine ite_cc (fun _ => ih _ _ _ _ _ _ (by omega) (by omega)) (fun _ => ?_)
      refine ite_cc (fun _ => ih _ _ _ _ _ _ (by omega) (hp _ (by simp))) (fun _ => ?_)
      refine ite_cc (fun _ => ih _ _ _ _ _ _ (by omega) (hp _ (by simp))) (fun _ => ?_)
      refine ite_cc (fun _ => ih _ _ _ _ _ _ (by omega) (hp _ (by simp))) (fun _ => ?_)
      refine ite_cc (fun _ => ih _ _ _ _ _ _ (by omega) (hp _ (by simp))) (fun _ => ?_)
      refine ite_cc (fun _ => ih _ _ _ _ _ _ (by omega) (hp _ (by simp))) (fun _ => ?_)
      refine ite_cc (fun _ => ?_) (fun _ => ?_)
      · cases iter with
        | nil => rfl
        | cons ch iter =>
          simp only [List.length_cons] at hn hN
          refine ih _ _ _ _ _ _ (by omega) ?_
          rw [pushKV_length]; simp; omega
      exact ite_cc (fun _ => ih _ _ _ _ _ _ (by omega) (by omega))
        (fun _ => ih _ _ _ _ _ _ (by omega) (hp _ (by simp)))

variable [FloatOps F]

/-- The body of `_parse` calls itself on strictly shorter texts only. -/
theorem parseBody_congr (f g : Str → Res (Json F)) (json : Str) (hfg : ∀ s, s.length < json.length → f s = g s) :
    parseBody f json = parseBody g json := by
  unfold parseBody
  cases json with
  | nil => rfl
  | cons c t =>
    simp only [List.head?_cons]
    have ha : parseArray f (c :: t) = parseArray g (c :: t) := by
      unfold parseArray
      simp only [List.drop_succ_cons, List.drop_zero]
      split
      · rfl
      · exact arrLoop_congr f g (t.length + 1) (by simpa using hfg) t.length t _ _ _ _ (by omega) (by simp)
    have ho : parseObject f (c :: t) = parseObject g (c :: t) := by
      unfold parseObject
      simp only [List.drop_succ_cons, List.drop_zero]
      split
      · rfl
      · exact objLoop_congr f g (t.length + 1) (by simpa using hfg) t.length t _ _ _ _ _ (by omega) (by simp)
    rw [ha, ho]

theorem parseFuel_indep (d d' : Res (Json F)) : ∀ (n m : Nat) (json : Str), json.length < n → json.length < m →
    parseFuel d n json = parseFuel d' m json := by
  intro n
  induction n with
  | zero => intro m json h; omega
  | succ n ih =>
    intro m json hn hm
    cases m with
    | zero => omega
    | succ m =>
      rw [parseFuel, parseFuel]
      exact parseBody_congr _ _ _ (fun s hs => ih m s (by omega) (by omega))

theorem parseFuel_eq (d : Res (Json F)) (n : Nat) (json : Str) (h : json.length < n) :
    parseFuel d n json = parseRaw json :=
  parseFuel_indep d _ n _ json h (by omega)

/-- The recursive equation of `Json::_parse`. -/
theorem parseRaw_eq (json : Str) : (parseRaw json : Res (Json F)) = parseBody parseRaw json := by
  conv => lhs; rw [parseRaw, parseFuel]
  exact parseBody_congr _ _ _ (fun s hs => parseFuel_eq _ _ s (by omega))

end RJ
