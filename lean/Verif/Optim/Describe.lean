import Verif.Utils.Props
import Verif.Nlcg.Model
import Verif.Vmlmb.Model
import Mathlib.Data.Nat.Digits.Lemmas
import Mathlib.Tactic.IntervalCases
/-!
# C56: descriptions of the optimizers

`opk_get_nlcg_description` and `opk_get_vmlmb_description` build their result in a local array of 80 bytes.
-/
namespace Opk.Optim
open Opk.Utils

/-- The bytes of a string literal, encoded as in the source (UTF-8), without the terminating zero. -/
def bytes (s : String) : List Byte := s.toUTF8.data.toList

/-- C library `strcpy(buf, s)` for a literal `s`: `none` if it does not fit (undefined behaviour). -/
def strcpy (buf : List Byte) (s : List Byte) : Option (List Byte) := memcpy buf (s ++ [0]) (s.length + 1)

/-- C library `strcat(buf, s)`. -/
def strcat (buf : List Byte) (s : List Byte) : Option (List Byte) := do
  let n ← strlen buf
  if n + s.length + 1 ≤ buf.length then some (buf.take n ++ s ++ [0] ++ buf.drop (n + s.length + 1)) else none

end Opk.Optim

namespace Opk.Nlcg
open Opk.Utils Opk.Optim

/-- The literals of `src/nlcg.c:604-628`. -/
def ruleName : Nat → Option String
  | 1 => some "Fletcher & Reeves"
  | 2 => some "Hestenes & Stiefel"
  | 3 => some "Polak, Ribière & Polyak"
  | 4 => some "Fletcher conjugate descent"
  | 5 => some "Liu & Storey"
  | 6 => some "Dai & Yuan"
  | 7 => some "Perry & Shanno"
  | 8 => some "Hager & Zhang"
  | _ => none

/-- `opk_get_nlcg_description`, `src/nlcg.c:595-645`, for a non `NULL` optimizer with the given flags.  `str`
are the initial contents of the local array of 80 bytes; `corrupted` is the value of
`OPK_CORRUPTED_WORKSPACE`; `buf` is as in `copyString`. -/
def description (corrupted : Nat) (str : List Byte) (flags : Nat) (buf : Option (List Byte)) (size : Nat) :
    Option (Option (List Byte) × Nat) :=
  if buf = none ∧ size > 0 then some (buf, 0)
  else
    match ruleName (flags &&& 0xff) with
    | none => some (buf, corrupted)
    | some name => do
      let str ← strcpy str (bytes name)
      let str ← strcat str (bytes " updates")
      let str ← if hasBit flags POWELL then strcat str (bytes " with Powell restarts") else some str
      let str ← if hasBit flags SHANNO_PHUA then do
          let str ← strcat str (bytes (if hasBit flags POWELL then " and" else " with"))
          strcat str (bytes " Shanno & Phua step size")
        else some str
      copyString buf size (some str)

end Opk.Nlcg

namespace Opk.Vmlmb
open Opk.Utils Opk.Optim

/-- The characters written by the format `%ld` for a non negative value. -/
def decimal (n : Nat) : List Byte :=
  if n = 0 then [48] else (Nat.digits 10 n).reverse.map fun d => UInt8.ofNat (48 + d)

/-- `opk_get_vmlmb_description`, `src/vmlmb.c:761-784`, for the method and the positive number of memorized steps of an
optimizer; `sprintf` is the copy of the formatted characters. -/
def description (str : List Byte) (method : Method) (m : Nat) (buf : Option (List Byte)) (size : Nat) :
    Option (Option (List Byte) × Nat) := do
  let str ← match method with
    | .lbfgs => strcpy str (bytes "variable metric method with " ++ decimal m ++ bytes " memorized step(s)")
    | .vmlmb | .blmvm =>
      strcpy str (bytes "variable metric method with " ++ decimal m ++ bytes " memorized step(s) and bounds")
  copyString buf size (some str)

end Opk.Vmlmb

namespace Opk.Optim
open Opk.Utils

theorem strcpy_spec (buf s : List Byte) (hs : ∀ c ∈ s, c ≠ 0) :
    (s.length < buf.length → ∃ buf', strcpy buf s = some buf' ∧ buf'.length = buf.length ∧ IsCStr buf' s) ∧
    (buf.length ≤ s.length → strcpy buf s = none) := by
  unfold strcpy memcpy
  refine ⟨fun h => ?_, fun h => if_neg (by simp; omega)⟩
  rw [if_pos ⟨by omega, by simp⟩]
  refine ⟨_, rfl, by simp; omega, hs, buf.drop (s.length + 1), ?_⟩
  rw [List.take_of_length_le (by simp)]; simp

theorem strcat_spec (buf t s : List Byte) (ht : IsCStr buf t) (hs : ∀ c ∈ s, c ≠ 0) :
    ((t ++ s).length < buf.length → ∃ buf', strcat buf s = some buf' ∧ buf'.length = buf.length ∧ IsCStr buf' (t ++ s)) ∧
    (buf.length ≤ (t ++ s).length → strcat buf s = none) := by
  have hl := strlen_of_isCStr ht
  obtain ⟨h1, rest, rfl⟩ := ht
  unfold strcat
  rw [hl]
  simp only [Option.bind_eq_bind, Option.bind_some, List.length_append, List.length_cons]
  refine ⟨fun h => ?_, fun h => if_neg (by omega)⟩
  rw [if_pos (by omega)]
  refine ⟨_, rfl, by simp; omega, ?_, (t ++ 0 :: rest).drop (t.length + s.length + 1), by simp⟩
  intro c hc
  rcases List.mem_append.1 hc with h | h
  · exact h1 c h
  · exact hs c h

/-- A string of `bytes` has no zero and is copied as such. -/
theorem copied (str text : List Byte) (h : IsCStr str text) (buf : List Byte) (size : Nat) (hb : size ≤ buf.length) :
    copyString none size (some str) = some (none, text.length + 1) ∧
    ∃ buf', copyString (some buf) size (some str) = some (some buf', text.length + 1) ∧ buf'.length = buf.length ∧
      (∀ i, size ≤ i → buf'[i]? = buf[i]?) ∧ (0 < size → IsCStr buf' (text.take (size - 1))) := by
  refine ⟨copyString_null _ text size h, ?_⟩
  obtain ⟨b, h1, h2, h3, h4⟩ := copyString_spec (some str) text buf size h hb
  exact ⟨b, h1, h2, h3, fun hp => by obtain ⟨t, k1, k2, -⟩ := h4 hp; rw [← k2]; exact k1⟩

end Opk.Optim

namespace Opk.Nlcg
open Opk.Utils Opk.Optim

/-- Specification: the description of the optimizer with given flags. -/
def text (flags : Nat) : Option String :=
  (ruleName (flags &&& 0xff)).map fun name =>
    name ++ " updates" ++
      (match hasBit flags POWELL, hasBit flags SHANNO_PHUA with
        | false, false => ""
        | true, false => " with Powell restarts"
        | false, true => " with Shanno & Phua step size"
        | true, true => " with Powell restarts and Shanno & Phua step size")

/-- The name of the method has more than 22 bytes. -/
def LongName (flags : Nat) : Prop := flags &&& 0xff = 3 ∨ flags &&& 0xff = 4

/-- Result of the function for each rule and options. -/
theorem description_aux (str : List Byte) (hstr : str.length = 80) (name : String) (p q : Bool)
    (h1 : ∀ c ∈ bytes name, c ≠ 0) (t : List Byte) (ht : t = bytes name ++ bytes " updates" ++
      (if p then bytes " with Powell restarts" else []) ++
      (if q then (if p then bytes " and" else bytes " with") ++ bytes " Shanno & Phua step size" else []))
    (r : Option (List Byte)) (hr : r = (do
      let str ← strcpy str (bytes name)
      let str ← strcat str (bytes " updates")
      let str ← if p then strcat str (bytes " with Powell restarts") else some str
      if q then do
          let str ← strcat str (bytes (if p then " and" else " with"))
          strcat str (bytes " Shanno & Phua step size")
        else some str)) :
    (t.length < 80 → ∃ str', r = some str' ∧ IsCStr str' t) ∧ (80 ≤ t.length → r = none) := by
  have z1 : ∀ c ∈ bytes " updates", c ≠ 0 := by decide
  have z2 : ∀ c ∈ bytes " with Powell restarts", c ≠ 0 := by decide
  have z3 : ∀ c ∈ bytes " and", c ≠ 0 := by decide
  have z4 : ∀ c ∈ bytes " with", c ≠ 0 := by decide
  have z5 : ∀ c ∈ bytes " Shanno & Phua step size", c ≠ 0 := by decide
  -- a chain of concatenations
  have chain : ∀ (l : List (List Byte)), (∀ s ∈ l, ∀ c ∈ s, c ≠ 0) → ∀ (buf u : List Byte), buf.length = 80 →
      IsCStr buf u → u.length < 80 →
      ((u ++ l.flatten).length < 80 → ∃ str', l.foldlM strcat buf = some str' ∧ IsCStr str' (u ++ l.flatten)) ∧
      (80 ≤ (u ++ l.flatten).length → l.foldlM strcat buf = none) := by
    intro l
    induction l with
    | nil => intro _ buf u hb hu hlt; exact ⟨fun _ => ⟨buf, rfl, by simpa using hu⟩, fun h => by simp at h; omega⟩
    | cons s l ih =>
      intro hl buf u hb hu hlt
      obtain ⟨a1, a2⟩ := strcat_spec buf u s hu (hl s (by simp))
      rw [hb] at a1 a2
      by_cases hc : (u ++ s).length < 80
      · obtain ⟨b, b1, b2, b3⟩ := a1 hc
        obtain ⟨c1, c2⟩ := ih (fun s' h => hl s' (by simp [h])) b (u ++ s) b2 b3 hc
        simp only [List.flatten_cons, List.foldlM_cons, b1, Option.bind_eq_bind, Option.bind_some]
        rw [← List.append_assoc]
        exact ⟨c1, c2⟩
      · push Not at hc
        simp only [List.flatten_cons, List.foldlM_cons, a2 hc, Option.bind_eq_bind, Option.bind_none]
        refine ⟨fun h => ?_, fun _ => by trivial⟩
        simp at h hc; omega
  obtain ⟨a1, a2⟩ := strcpy_spec str (bytes name) h1
  rw [hstr] at a1 a2
  by_cases hc : (bytes name).length < 80
  · obtain ⟨b, b1, b2, b3⟩ := a1 hc
    rw [b1] at hr
    rcases p with _ | _ <;> rcases q with _ | _
    · have := chain [bytes " updates"] (by simpa using z1) b _ b2 b3 hc
      simpa [hr, ht] using this
    · have := chain [bytes " updates", bytes " with", bytes " Shanno & Phua step size"]
        (by simpa using ⟨z1, z4, z5⟩) b _ b2 b3 hc
      simpa [hr, ht] using this
    · have := chain [bytes " updates", bytes " with Powell restarts"] (by simpa using ⟨z1, z2⟩) b _ b2 b3 hc
      simpa [hr, ht] using this
    · have := chain [bytes " updates", bytes " with Powell restarts", bytes " and", bytes " Shanno & Phua step size"]
        (by simpa using ⟨z1, z2, z3, z5⟩) b _ b2 b3 hc
      simpa [hr, ht] using this
  · push Not at hc
    rw [a2 hc] at hr
    refine ⟨fun h => ?_, fun _ => hr⟩
    rw [ht] at h; simp at h; omega

/-- The names have no zero; their lengths. -/
theorem ruleName_bytes (k : Nat) (name : String) (h : ruleName k = some name) :
    (∀ c ∈ bytes name, c ≠ 0) ∧ (bytes name).length ≤ 26 ∧ (k = 3 ∨ k = 4 ↔ 22 < (bytes name).length) := by
  unfold ruleName at h
  split at h <;> first | cases h; refine ⟨by decide, by decide, by decide⟩ | cases h

/-- The bytes of the text. -/
theorem text_bytes (flags : Nat) (name : String) (h : ruleName (flags &&& 0xff) = some name) :
    ∃ t, text flags = some t ∧ bytes t = bytes name ++ bytes " updates" ++
      (if hasBit flags POWELL then bytes " with Powell restarts" else []) ++
      (if hasBit flags SHANNO_PHUA then
        (if hasBit flags POWELL then bytes " and" else bytes " with") ++ bytes " Shanno & Phua step size" else []) := by
  have ha : ∀ a b : String, bytes (a ++ b) = bytes a ++ bytes b := by
    intro a b; unfold bytes; simp
  unfold text
  rw [h]
  refine ⟨_, rfl, ?_⟩
  rw [ha, ha]
  rcases hasBit flags POWELL with _ | _ <;> rcases hasBit flags SHANNO_PHUA with _ | _
  · simp; rfl
  · simp only [Bool.false_eq_true, if_false, if_true, List.append_nil, List.append_assoc]; congr 2
  · simp only [Bool.false_eq_true, if_false, if_true, List.append_nil, List.append_assoc]
  · simp only [if_true, List.append_assoc]; congr 2

/-- **C56 (NLCG), what holds.** For every flags accepted by the constructor except the combination of the two
options with the methods of Polak, Ribière & Polyak and of Fletcher, whatever the initial contents of the
local array: there is no undefined behaviour, the value returned is the size needed by the text and at most `size` bytes of
the destination are written, with the beginning of the text. -/
theorem description_partial (corrupted : Nat) (str : List Byte) (hstr : str.length = 80) (flags : Nat)
    (hsel : (select flags).isSome)
    (hok : ¬ ((flags &&& 0xff = 3 ∨ flags &&& 0xff = 4) ∧ hasBit flags POWELL ∧ hasBit flags SHANNO_PHUA)) :
    ∃ t, text flags = some t ∧ description corrupted str flags none 0 = some (none, (bytes t).length + 1) ∧
      ∀ (buf : List Byte) (size : Nat), size ≤ buf.length →
        ∃ buf', description corrupted str flags (some buf) size = some (some buf', (bytes t).length + 1) ∧
          buf'.length = buf.length ∧ (∀ i, size ≤ i → buf'[i]? = buf[i]?) ∧
          (0 < size → IsCStr buf' ((bytes t).take (size - 1))) := by
  have hn : ∃ name, ruleName (flags &&& 0xff) = some name := by
    unfold select at hsel
    unfold ruleName
    split at hsel <;> simp_all
  obtain ⟨name, hname⟩ := hn
  obtain ⟨n1, n2, n3⟩ := ruleName_bytes _ _ hname
  obtain ⟨t, ht, hb⟩ := text_bytes flags name hname
  refine ⟨t, ht, ?_⟩
  have l1 : (bytes " updates").length = 8 := by decide
  have l2 : (bytes " with Powell restarts").length = 21 := by decide
  have l3 : (bytes " and").length = 4 := by decide
  have l4 : (bytes " with").length = 5 := by decide
  have l5 : (bytes " Shanno & Phua step size").length = 24 := by decide
  have hlen : (bytes t).length < 80 := by
    rw [hb]
    rcases hp : hasBit flags POWELL with _ | _ <;> rcases hq : hasBit flags SHANNO_PHUA with _ | _ <;>
      simp [hp, hq, l1, l2, l3, l4, l5] at hok ⊢ <;> omega
  obtain ⟨str', e1, e2⟩ := (description_aux str hstr name (hasBit flags POWELL) (hasBit flags SHANNO_PHUA) n1 _ hb _ rfl).1 hlen
  have key : ∀ buf size, ¬ (buf = none ∧ size > 0) →
      description corrupted str flags buf size = copyString buf size (some str') := by
    intro buf size h
    unfold description
    rw [if_neg h, hname]
    dsimp only
    have := congrArg (fun r : Option (List Byte) => r.bind fun s => copyString buf size (some s)) e1
    revert this
    rcases hasBit flags POWELL with _ | _ <;> rcases hasBit flags SHANNO_PHUA with _ | _ <;> intro this <;>
      simpa [Option.bind_assoc] using this
  constructor
  · rw [key _ _ (by simp)]
    exact (copied str' _ e2 [] 0 (by simp)).1
  · intro buf size hs
    rw [key _ _ (by simp)]
    exact (copied str' _ e2 buf size hs).2

/-- **C56 does not hold**: with the two options and the methods of Polak, Ribière & Polyak or of Fletcher the text does
not fit in the local array, whatever the arguments. -/
theorem description_overflow (corrupted : Nat) (str : List Byte) (hstr : str.length = 80) (flags : Nat)
    (h : (flags &&& 0xff = 3 ∨ flags &&& 0xff = 4) ∧ hasBit flags POWELL ∧ hasBit flags SHANNO_PHUA)
    (buf : Option (List Byte)) (size : Nat) (hb : ¬ (buf = none ∧ size > 0)) :
    description corrupted str flags buf size = none := by
  obtain ⟨h1, hp, hq⟩ := h
  have hn : ∃ name, ruleName (flags &&& 0xff) = some name := by
    rcases h1 with h | h <;> rw [h] <;> exact ⟨_, rfl⟩
  obtain ⟨name, hname⟩ := hn
  obtain ⟨n1, n2, n3⟩ := ruleName_bytes _ _ hname
  obtain ⟨t, ht, hbt⟩ := text_bytes flags name hname
  have l1 : (bytes " updates").length = 8 := by decide
  have l2 : (bytes " with Powell restarts").length = 21 := by decide
  have l3 : (bytes " and").length = 4 := by decide
  have l5 : (bytes " Shanno & Phua step size").length = 24 := by decide
  have hlen : 80 ≤ (bytes t).length := by
    have := n3.1 h1
    rw [hbt]
    simp [hp, hq, l1, l2, l3, l5]; omega
  have e := (description_aux str hstr name (hasBit flags POWELL) (hasBit flags SHANNO_PHUA) n1 _ hbt _ rfl).2 hlen
  unfold description
  rw [if_neg hb, hname]
  dsimp only
  have := congrArg (fun r : Option (List Byte) => r.bind fun s => copyString buf size (some s)) e
  simp only [hp, hq, if_true, Option.bind_eq_bind, Option.bind_assoc, Option.bind_none] at this ⊢
  exact this

/-- In particular the description of an optimizer with the default options overflows. -/
theorem default_description_overflow (corrupted : Nat) (str : List Byte) (hstr : str.length = 80) :
    description corrupted str DEFAULT none 0 = none :=
  description_overflow corrupted str hstr DEFAULT (by decide) none 0 (by simp)

/-- Non-vacuity: Fletcher & Reeves with the two options. -/
example : description 7 (List.replicate 80 65) (1 ||| POWELL ||| SHANNO_PHUA) (some (List.replicate 9 1)) 9 =
    some (some (bytes "Fletcher" ++ [0]), 75) := by decide +kernel

end Opk.Nlcg

namespace Opk.Vmlmb
open Opk.Utils Opk.Optim

theorem decimal_spec (n : Nat) (h : n < 10 ^ 19) : (∀ c ∈ decimal n, c ≠ 0) ∧ (decimal n).length ≤ 19 := by
  unfold decimal
  split_ifs with h0
  · exact ⟨by decide, by decide⟩
  · constructor
    · intro c hc
      simp only [List.mem_map, List.mem_reverse] at hc
      obtain ⟨d, hd, rfl⟩ := hc
      have := Nat.digits_lt_base (by decide : 1 < 10) hd
      interval_cases d <;> decide
    · simp only [List.length_map, List.length_reverse]
      exact (Nat.digits_length_le_iff (by decide) n).2 h

/-- **C56 (VMLMB).** For any method and any number of memorized steps (which is less than `2 ^ 63`), the description fits in
the local array and is copied as announced. -/
theorem description_fits (str : List Byte) (hstr : str.length = 80) (method : Method) (m : Nat) (hm : m < 2 ^ 63) :
    ∃ t, t = bytes "variable metric method with " ++ decimal m ++ bytes " memorized step(s)" ++
        (if method = .lbfgs then [] else bytes " and bounds") ∧
      description str method m none 0 = some (none, t.length + 1) ∧
      ∀ (buf : List Byte) (size : Nat), size ≤ buf.length →
        ∃ buf', description str method m (some buf) size = some (some buf', t.length + 1) ∧
          buf'.length = buf.length ∧ (∀ i, size ≤ i → buf'[i]? = buf[i]?) ∧
          (0 < size → IsCStr buf' (t.take (size - 1))) := by
  obtain ⟨d1, d2⟩ := decimal_spec m (lt_trans hm (by norm_num))
  have z1 : ∀ c ∈ bytes "variable metric method with ", c ≠ 0 := by decide
  have z2 : ∀ c ∈ bytes " memorized step(s)", c ≠ 0 := by decide
  have z3 : ∀ c ∈ bytes " and bounds", c ≠ 0 := by decide
  have l1 : (bytes "variable metric method with ").length = 28 := by decide
  have l2 : (bytes " memorized step(s)").length = 18 := by decide
  have l3 : (bytes " and bounds").length = 11 := by decide
  have e3 : bytes " memorized step(s) and bounds" = bytes " memorized step(s)" ++ bytes " and bounds" := by decide
  generalize ht : bytes "variable metric method with " ++ decimal m ++ bytes " memorized step(s)" ++
        (if method = .lbfgs then [] else bytes " and bounds") = t
  have hz : ∀ c ∈ t, c ≠ 0 := by
    intro c hc
    rw [← ht] at hc
    simp only [List.mem_append] at hc
    rcases hc with ((h | h) | h) | h
    · exact z1 c h
    · exact d1 c h
    · exact z2 c h
    · split_ifs at h
      · cases h
      · exact z3 c h
  have hlen : t.length < str.length := by
    rw [hstr, ← ht]
    split_ifs <;> simp [l1, l2, l3] <;> omega
  obtain ⟨str', e1, -, e2⟩ := (strcpy_spec str t hz).1 hlen
  have key : ∀ buf size, description str method m buf size = copyString buf size (some str') := by
    intro buf size
    unfold description
    rcases method with _ | _ | _
    · simp only [if_true, List.append_nil] at ht
      simp only [ht, e1, Option.bind_eq_bind, Option.bind_some]
    · simp only [reduceCtorEq, if_false] at ht
      simp only [e3, ← List.append_assoc, ht, e1, Option.bind_eq_bind, Option.bind_some]
    · simp only [reduceCtorEq, if_false] at ht
      simp only [e3, ← List.append_assoc, ht, e1, Option.bind_eq_bind, Option.bind_some]
  refine ⟨t, rfl, ?_, ?_⟩
  · rw [key]; exact (copied str' _ e2 [] 0 (by simp)).1
  · intro buf size hs
    rw [key]; exact (copied str' _ e2 buf size hs).2

/-- Non-vacuity: 5 memorized steps. -/
example : description (List.replicate 80 65) .vmlmb 5 (some (List.replicate 9 1)) 9 =
    some (some (bytes "variable" ++ [0]), 59) := by decide +kernel

end Opk.Vmlmb
