import Verif.Utils.Model
/-!
# Properties C01, C02, C03 (`src/utils.c`)
-/
namespace Opk.Utils

/-! ## Specification of C strings -/

/-- The array `mem` begins with the C string `s`: the bytes of `s`, none of which
is `'\0'`, followed by a `'\0'`. -/
def IsCStr (mem s : List Byte) : Prop := (∀ c ∈ s, c ≠ 0) ∧ ∃ rest, mem = s ++ 0 :: rest

/-- A source argument of `opk_copy_string` denoting the C string `s`: either a
non-`NULL` array holding `s`, or `NULL` which stands for the empty string. -/
def Denotes (src : Option (List Byte)) (s : List Byte) : Prop :=
  match src with
  | none => s = []
  | some mem => IsCStr mem s

theorem strlen_of_isCStr {mem s : List Byte} (h : IsCStr mem s) : strlen mem = some s.length := by
  obtain ⟨hs, rest, rfl⟩ := h
  induction s with
  | nil => simp [strlen]
  | cons c s ih =>
    have hc : c ≠ 0 := hs c (by simp)
    have := ih (fun d hd => hs d (by simp [hd]))
    simp [strlen, hc, this]

theorem sourceLength_of_denotes {src s} (h : Denotes src s) : sourceLength src = some s.length := by
  cases src with
  | none => simp [Denotes] at h; simp [sourceLength, h]
  | some mem =>
    have h' := strlen_of_isCStr h
    obtain ⟨hs, rest, rfl⟩ := h
    cases s with
    | nil => simp [sourceLength]
    | cons c s =>
      have hc : c ≠ 0 := hs c (by simp)
      simp only [List.cons_append] at h' ⊢
      simp only [sourceLength, hc, if_false]
      exact h'

/-- **C01.**  For every source denoting the C string `s` (or `NULL`), every
destination array `d` of at least `size` bytes: the call has no undefined
behaviour, returns `length(s)+1`, does not change the size of the destination
nor any byte at index `size` or above, and if `size > 0` leaves in the
destination a NUL-terminated string `t` which is the prefix of `s` of length
`min(length s, size-1)`; in particular `t = s` iff the returned value fits. -/
theorem copyString_spec (src : Option (List Byte)) (s d : List Byte) (size : Nat)
    (hsrc : Denotes src s) (hd : size ≤ d.length) :
    ∃ d', copyString (some d) size src = some (some d', s.length + 1)
      ∧ d'.length = d.length
      ∧ (∀ i, size ≤ i → d'[i]? = d[i]?)
      ∧ (0 < size → ∃ t, IsCStr d' t ∧ t = s.take (size - 1)
            ∧ (t = s ↔ s.length + 1 ≤ size)) := by
  have hlen := sourceLength_of_denotes hsrc
  by_cases hgt : size > s.length
  · by_cases hpos : s.length > 0
    · -- whole string copied with its terminator
      cases src with
      | none => simp [Denotes] at hsrc; simp [hsrc] at hpos
      | some mem =>
        obtain ⟨hs, rest, rfl⟩ := hsrc
        have h1 : s.length + 1 ≤ d.length := by omega
        refine ⟨s ++ [0] ++ d.drop (s.length + 1), ?_, ?_, ?_, ?_⟩
        · simp only [copyString, hlen, Option.bind_eq_bind, Option.bind_some, hgt, hpos, if_true,
            memcpy]
          have e : (s ++ (0 : Byte) :: rest).take (s.length + 1) = s ++ [0] := by
            have : s ++ (0 : Byte) :: rest = (s ++ [0]) ++ rest := by simp
            rw [this, List.take_left' (by simp)]
          simp [h1, e]
        · simp; omega
        · intro i hi
          rw [List.getElem?_append_right (by simp; omega)]
          simp only [List.length_append, List.length_singleton, List.getElem?_drop]
          congr 1; omega
        · intro _
          refine ⟨s, ⟨hs, d.drop (s.length + 1), by simp⟩, ?_, ?_⟩
          · rw [List.take_of_length_le (by omega)]
          · constructor
            · intro _; omega
            · intro _; rfl
    · have hs0 : s = [] := by
        cases s with
        | nil => rfl
        | cons c s => simp at hpos
      subst hs0
      cases d with
      | nil => simp at hd; simp [hd] at hgt
      | cons c d =>
        refine ⟨0 :: d, ?_, by simp, ?_, ?_⟩
        · simp only [copyString, hlen, Option.bind_eq_bind, Option.bind_some, List.length_nil]
          simp only [List.length_nil] at hgt
          simp [hgt, store]
        · intro i hi
          cases i with
          | zero => simp at hi; simp [hi] at hgt
          | succ i => simp
        · intro hsz
          refine ⟨[], ⟨by simp, d, by simp⟩, by simp, ?_⟩
          simp; omega
  · have hle : size ≤ s.length := by omega
    cases src with
    | none =>
      simp [Denotes] at hsrc; subst hsrc
      have : size = 0 := by simpa using hle
      subst this
      refine ⟨d, ?_, rfl, fun _ _ => rfl, by omega⟩
      simp [copyString, hlen]
    | some mem =>
      obtain ⟨hs, rest, rfl⟩ := hsrc
      by_cases h0 : size = 0
      · subst h0
        refine ⟨d, ?_, rfl, fun _ _ => rfl, by omega⟩
        simp [copyString, hlen]
      · have hsz : 0 < size := by omega
        have htake : (s ++ (0 : Byte) :: rest).take (size - 1) = s.take (size - 1) := by
          rw [List.take_append_of_le_length (by omega)]
        -- both `size = 1` and `size > 1` give the same contents
        have hd1 : (if size > 1 then memcpy d (s ++ (0 : Byte) :: rest) (size - 1) else some d)
            = some (s.take (size - 1) ++ d.drop (size - 1)) := by
          by_cases h1 : size > 1
          · have hA : size - 1 ≤ d.length := by omega
            have hB : size - 1 ≤ (s ++ (0 : Byte) :: rest).length := by
              simp only [List.length_append, List.length_cons]; omega
            simp only [h1, if_true, memcpy, hA, hB, and_self, htake]
          · have : size = 1 := by omega
            subst this; simp
        have hl1 : (s.take (size - 1)).length = size - 1 := by simp; omega
        have hl2 : (s.take (size - 1) ++ d.drop (size - 1)).length = d.length := by
          simp; omega
        have hdrop : d.drop (size - 1) = d[size - 1] :: d.drop size := by
          have := List.drop_eq_getElem_cons (l := d) (i := size - 1) (by omega)
          rw [this]; congr 2; omega
        have hset : (s.take (size - 1) ++ d.drop (size - 1)).set (size - 1) 0
            = s.take (size - 1) ++ 0 :: d.drop size := by
          rw [List.set_append_right _ _ (by omega), hl1, hdrop]; simp
        refine ⟨s.take (size - 1) ++ 0 :: d.drop size, ?_, ?_, ?_, ?_⟩
        · simp only [copyString, hlen, Option.bind_eq_bind, Option.bind_some]
          simp only [show ¬ size > s.length from by omega, if_false]
          rw [hd1]
          simp only [Option.bind_some, hsz, if_true, store, hl2,
            show size - 1 < d.length from by omega, hset]
          rfl
        · simp; omega
        · intro i hi
          rw [List.getElem?_append_right (by rw [hl1]; omega), hl1]
          have : i - (size - 1) = (i - size) + 1 := by omega
          rw [this, List.getElem?_cons_succ, List.getElem?_drop]
          congr 1; omega
        · intro _
          refine ⟨s.take (size - 1), ⟨fun c hc => hs c (List.mem_of_mem_take hc), _, rfl⟩, rfl, ?_⟩
          constructor
          · intro h
            have := congrArg List.length h
            rw [hl1] at this; omega
          · intro h; omega

/-- **C01 (NULL destination).**  With a `NULL` destination nothing is written and
the size is returned. -/
theorem copyString_null (src : Option (List Byte)) (s : List Byte) (size : Nat)
    (hsrc : Denotes src s) : copyString none size src = some (none, s.length + 1) := by
  simp [copyString, sourceLength_of_denotes hsrc]

/-- **C01 (round trip).**  Query the size with a `NULL` destination, then copy in a
buffer of that size: the buffer holds exactly the source string. -/
theorem copyString_roundtrip (src : Option (List Byte)) (s d : List Byte)
    (hsrc : Denotes src s) :
    ∃ n, copyString none 0 src = some (none, n) ∧
      (d.length = n → ∃ d' m, copyString (some d) n src = some (some d', m) ∧ IsCStr d' s) := by
  refine ⟨s.length + 1, copyString_null src s 0 hsrc, fun hd => ?_⟩
  obtain ⟨d', h1, _, _, h4⟩ := copyString_spec src s d (s.length + 1) hsrc (by omega)
  obtain ⟨t, ht, _, h5⟩ := h4 (by omega)
  have : t = s := h5.mpr (Nat.le_refl _)
  exact ⟨d', _, h1, this ▸ ht⟩

/-- Non-vacuity of C01: "abc" in a too small buffer of 3 bytes followed by a guard byte. -/
example : copyString (some [1, 2, 3, 77]) 3 (some [97, 98, 99, 0, 5])
    = some (some [97, 98, 0, 77], 4) := by decide
example : Denotes (some [97, 98, 99, 0, 5]) [97, 98, 99] := ⟨by decide, [5], rfl⟩

/-! ## C02 -/

/-- Specification: the handler in force after a history is decided by the last
`set` of the history alone. -/
def lastSet (h0 : Handler) (ops : List HOp) : Handler :=
  ops.foldl (fun h op => match op with
    | .set none => .default
    | .set (some id) => .client id
    | _ => h) h0

/-- **C02 (state).**  After any history the handler in force is the one of the last
`set` call. -/
theorem hrun_state (h : Handler) (ops : List HOp) : (hrun h ops).1 = lastSet h ops := by
  induction ops generalizing h with
  | nil => rfl
  | cons op ops ih =>
    simp only [hrun, lastSet, List.foldl_cons]
    rw [ih]
    cases op with
    | set new => cases new <;> rfl
    | get => rfl
    | error m => rfl

theorem hrun_append (h : Handler) (a b : List HOp) :
    hrun h (a ++ b) = ((hrun (hrun h a).1 b).1, (hrun h a).2 ++ (hrun (hrun h a).1 b).2) := by
  induction a generalizing h with
  | nil => simp [hrun]
  | cons op a ih => simp [hrun, ih]

/-- **C02 (outputs).**  After any history starting from the library's initial state,
`set` and `get` return the handler of the last `set` of the history (default if
there is none), and `error` aborts if it is the default one, otherwise calls
that client function with the message. -/
theorem hrun_outputs (ops : List HOp) (op : HOp) :
    (hrun .default (ops ++ [op])).2.getLast? = some
      (match op with
       | .set _ => .handler (lastSet .default ops)
       | .get => .handler (lastSet .default ops)
       | .error m => .effect (match lastSet .default ops with
          | .default => .abort m
          | .client id => .call id m)) := by
  rw [hrun_append, hrun_state]
  simp only [hrun, List.getLast?_append, List.getLast?_singleton, Option.some_or]
  cases op <;> simp [hstep, setErrorHandler, getErrorHandler, opkError, hrun_state]
  cases lastSet Handler.default ops <;> rfl

/-- Non-vacuity of C02. -/
example : (hrun .default [.set (some 3), .error "a", .set none, .error "b"]).2
    = [.handler .default, .effect (.call 3 "a"), .handler (.client 3), .effect (.abort "b")] := by
  decide

/-! ## C03 -/

theorem find?_reason_none (status : Int) (h : status < 0 ∨ 28 < status) :
    getReason status = "" := by
  have : statusList.find? (fun e => e.1 == status) = none := by
    rw [List.find?_eq_none]
    intro e he
    have hb : 0 ≤ e.1 ∧ e.1 ≤ 28 := by
      revert e
      decide
    simp; omega
  simp [getReason, this]

/-- **C03 (reason, unknown).**  The text is empty exactly for the integers which are not a
declared status. -/
theorem getReason_eq_empty_iff (status : Int) :
    getReason status = "" ↔ (status < 0 ∨ 28 < status) := by
  constructor
  · intro h
    by_cases hb : 0 ≤ status ∧ status ≤ 28
    · exfalso
      obtain ⟨n, rfl⟩ := Int.eq_ofNat_of_zero_le hb.1
      have hn : n ≤ 28 := by omega
      revert h
      have : ∀ n : Fin 29, getReason ((n : Nat) : Int) ≠ "" := by decide
      exact this ⟨n, by omega⟩
    · omega
  · exact find?_reason_none status

/-- **C03 (reason, distinct).**  Different declared statuses have different texts. -/
theorem getReason_injective (a b : Int) (ha : 0 ≤ a ∧ a ≤ 28) (hb : 0 ≤ b ∧ b ≤ 28)
    (h : getReason a = getReason b) : a = b := by
  obtain ⟨n, rfl⟩ := Int.eq_ofNat_of_zero_le ha.1
  obtain ⟨m, rfl⟩ := Int.eq_ofNat_of_zero_le hb.1
  have : ∀ n m : Fin 29, getReason ((n : Nat) : Int) = getReason ((m : Nat) : Int) → n = m := by
    decide +kernel
  have := this ⟨n, by omega⟩ ⟨m, by omega⟩ h
  simp at this; omega

/-- Specification: the declared constants of the public header as a set of (name,value)
pairs (duplicates of the C test chain removed). -/
def declared (name : String) (v : Int) : Prop :=
  (v, name) ∈ statusList.map (fun e => (e.1, e.2.1)) ∨ (name, v) ∈ otherConstants

theorem testChain_spec (name : String) (ptr : Int) (l : List (String × Int)) :
    (testChain name ptr l = (1, ptr) ∧ ∀ e ∈ l, e.1 ≠ name) ∨
    (∃ v, testChain name ptr l = (0, v) ∧ (name, v) ∈ l) := by
  induction l with
  | nil => left; simp [testChain]
  | cons e l ih =>
    obtain ⟨sym, val⟩ := e
    by_cases h : name = sym
    · right; exact ⟨val, by simp [testChain, h], by simp [h]⟩
    · rcases ih with ⟨h1, h2⟩ | ⟨v, h1, h2⟩
      · left
        refine ⟨by simp [testChain, h, h1], ?_⟩
        intro e he
        simp at he
        rcases he with rfl | he
        · exact fun h' => h h'.symm
        · exact h2 e he
      · right; exact ⟨v, by simp [testChain, h, h1], by simp [h2]⟩

theorem declared_iff (name : String) (v : Int) : declared name v ↔ (name, v) ∈ constantTests := by
  simp only [declared, constantTests, List.mem_append, List.mem_map, Prod.mk.injEq]
  refine or_congr ?_ Iff.rfl
  exact ⟨fun ⟨e, he, h1, h2⟩ => ⟨e, he, h2, h1⟩, fun ⟨e, he, h1, h2⟩ => ⟨e, he, h2, h1⟩⟩

theorem constantTests_functional : ∀ e ∈ constantTests, ∀ e' ∈ constantTests,
    e.1 = e'.1 → e.2 = e'.2 := by decide +kernel

theorem constantTests_ne_empty : ∀ e ∈ constantTests, e.1 ≠ "" := by decide +kernel

/-- **C03 (constants).**  For every string and every output variable: either the name is a
declared constant and the call succeeds (status `OPK_SUCCESS` = 0) and stores its declared
value, or it is not, the status is `OPK_INVALID_ARGUMENT` = 1 and the output is untouched. -/
theorem getIntegerConstant_spec (name : String) (old : Int) :
    (∃ v, declared name v ∧ getIntegerConstant (some name) (some old) = (0, some v)) ∨
    ((∀ v, ¬ declared name v) ∧ getIntegerConstant (some name) (some old) = (1, some old)) := by
  by_cases he : name = ""
  · right
    refine ⟨fun v hv => ?_, by simp [getIntegerConstant, he]⟩
    exact constantTests_ne_empty _ ((declared_iff _ _).mp hv) he
  · rcases testChain_spec name old constantTests with ⟨h1, h2⟩ | ⟨v, h1, h2⟩
    · right
      refine ⟨fun v hv => h2 _ ((declared_iff _ _).mp hv) rfl, ?_⟩
      simp [getIntegerConstant, he, h1]
    · left
      exact ⟨v, (declared_iff _ _).mpr h2, by simp [getIntegerConstant, he, h1]⟩

/-- **C03 (constants are functional).**  A declared name has a single value, so the value stored
is *the* declared value. -/
theorem declared_functional (name : String) (v w : Int) (hv : declared name v)
    (hw : declared name w) : v = w :=
  constantTests_functional _ ((declared_iff _ _).mp hv) _ ((declared_iff _ _).mp hw) rfl

/-- **C03 (errno).**  With distinct `errno` values, `opk_guess_status` maps exactly
these three codes to the corresponding status and everything else to -1, which is not a status. -/
theorem guessStatus_spec (ENOMEM EFAULT EINVAL code : Int)
    (h1 : ENOMEM ≠ EFAULT) (h2 : ENOMEM ≠ EINVAL) (h3 : EFAULT ≠ EINVAL) :
    (guessStatus ENOMEM EFAULT EINVAL code = 2 ↔ code = ENOMEM) ∧
    (guessStatus ENOMEM EFAULT EINVAL code = 3 ↔ code = EFAULT) ∧
    (guessStatus ENOMEM EFAULT EINVAL code = 1 ↔ code = EINVAL) ∧
    (code ≠ ENOMEM → code ≠ EFAULT → code ≠ EINVAL →
      guessStatus ENOMEM EFAULT EINVAL code = -1 ∧
      getReason (guessStatus ENOMEM EFAULT EINVAL code) = "") := by
  refine ⟨?_, ?_, ?_, ?_⟩
  · unfold guessStatus; split <;> (try split) <;> (try split) <;> simp_all
  · unfold guessStatus; split <;> (try split) <;> (try split) <;> simp_all
  · unfold guessStatus; split <;> (try split) <;> (try split) <;> simp_all
  · intro a b c
    have e : guessStatus ENOMEM EFAULT EINVAL code = -1 := by simp [guessStatus, a, b, c]
    exact ⟨e, by rw [e]; exact (getReason_eq_empty_iff _).mpr (Or.inl (by decide))⟩

/-- Non-vacuity of C03. -/
example : getIntegerConstant (some "OPK_NLCG_POWELL") (some 7) = (0, some 256) := by decide +kernel
example : getIntegerConstant (some "OPK_FOO") (some 7) = (1, some 7) := by decide +kernel

end Opk.Utils
