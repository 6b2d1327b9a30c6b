import Verif.Model.Misc

/-! Properties C07, C60, C61, C62, C63. -/
namespace Verif.Props
open Verif.Misc

/-! ### C07 -/

theorem kind_fatal (c : UInt32) : ((c &&& ~~~(7 : UInt32)) ||| 2) &&& 7 = 2 := by
  apply UInt32.toBitVec_inj.mp
  show ((c.toBitVec &&& ~~~(7#32)) ||| 2#32) &&& 7#32 = 2#32
  ext i hi
  have h : ((2#32) &&& 7#32)[i] = (2#32)[i] := congrArg (fun b : BitVec 32 => b[i]) (by decide : (2#32) &&& 7#32 = 2#32)
  simp only [BitVec.getElem_and, BitVec.getElem_or, BitVec.getElem_not] at h ⊢
  revert h
  generalize (2#32)[i] = a
  generalize (7#32)[i] = b
  cases c.toBitVec[i] <;> cases a <;> cases b <;> decide

theorem lookup_mem {m : RCMap} {k v : UInt32} (h : m.lookup k = some v) : (k, v) ∈ m := by
  induction m with
  | nil => simp at h
  | cons x xs ih =>
    rw [List.lookup_cons] at h
    by_cases e : (k == x.1) = true
    · rw [e] at h
      simp only [Option.some.injEq] at h
      have : k = x.1 := by simpa using e
      subst this; subst h; simp
    · have e' : (k == x.1) = false := by simpa using e
      rw [e'] at h
      simp [ih h]

/-- C07 (partial: a replacement of 0, RcOK, is treated as if absent). Whatever the handler answers, the code on
the wire is not of the internal kind; a code which is not internal passes unchanged; an internal code with a
configured non-zero replacement becomes that replacement, and otherwise the fatal code with the same other bits. -/
theorem C07_no_internal_code_partial (m : Option RCMap) (hm : ∀ x ∈ m, newServerAccepts x = true) (c : UInt32) :
    wireCode m c &&& 7 ≠ 3 ∧
    (c &&& 7 ≠ 3 → wireCode m c = c) ∧
    (∀ x v, m = some x → c &&& 7 = 3 → x.lookup c = some v → v ≠ 0 → wireCode m c = v) ∧
    (c &&& 7 = 3 → (∀ x ∈ m, x.lookup c = none) → wireCode m c = (c &&& ~~~7) ||| 2) := by
  refine ⟨?_, ?_, ?_, ?_⟩
  · unfold wireCode
    by_cases hk : (c &&& RcKindMask == RcInternal) = true
    · rw [if_pos hk]
      cases m with
      | some x =>
        simp only
        by_cases hne : x.get c ≠ 0
        · rw [if_pos hne]
          unfold RCMap.get at hne ⊢
          rcases hl : x.lookup c with _ | v
          · simp [hl] at hne
          · have := hm x rfl
            unfold newServerAccepts at this
            have := List.all_eq_true.mp this _ (lookup_mem hl)
            simp only [RcKindMask, RcInternal, Bool.and_eq_true, Bool.not_eq_true', beq_eq_false_iff_ne] at this
            simpa [hl] using this.2
        · rw [if_neg hne]; simp only [RcKindMask, RcFatal]; rw [kind_fatal]; decide
      | none => simp only [RcKindMask, RcFatal]; rw [kind_fatal]; decide
    · rw [if_neg hk]; simpa [RcKindMask, RcInternal] using hk
  · intro h
    unfold wireCode
    simp [RcKindMask, RcInternal, h]
  · intro x v hx hc hl hv
    subst hx
    unfold wireCode
    simp [RcKindMask, RcInternal, hc, RCMap.get, hl, hv]
  · intro hc hx
    unfold wireCode
    simp only [RcKindMask, RcInternal, RcFatal, hc, beq_self_eq_true, if_true]
    cases m with
    | none => rfl
    | some x => simp [RCMap.get, hx x rfl]

/-- `NewServer` accepts exactly the maps from internal codes to other codes. -/
theorem C07_accepted (m : RCMap) : newServerAccepts m = true ↔ ∀ kv ∈ m, kv.1 &&& 7 = 3 ∧ kv.2 &&& 7 ≠ 3 := by
  simp [newServerAccepts, RcKindMask, RcInternal]

/-- C07 is violated in the remaining case: a replacement by RcOK is accepted by NewServer and then ignored. -/
theorem C07_zero_replacement_ignored :
    newServerAccepts [(RcCanceled, RcOK)] = true ∧ wireCode (some [(RcCanceled, RcOK)]) RcCanceled = 0xff02 := by
  decide

example : newServerAccepts [(RcTimeout, 0x101)] = true ∧ wireCode (some [(RcTimeout, 0x101)]) RcTimeout = 0x101 ∧
    wireCode (some [(RcTimeout, 0x101)]) RcIOError = 0xfe02 ∧ wireCode none 0x502 = 0x502 := by decide

/-! ### C60 -/

/-- C60: the four kinds exclude each other, for every 32-bit code. -/
theorem C60_kinds_disjoint (c : UInt32) :
    ¬ (valid c = true ∧ restartable c = true) ∧
    ¬ (valid c = true ∧ (c &&& RcKindMask = RcFatal ∨ c &&& RcKindMask = RcInternal)) ∧
    ¬ (restartable c = true ∧ (c &&& RcKindMask = RcFatal ∨ c &&& RcKindMask = RcInternal)) ∧
    ¬ (c &&& RcKindMask = RcFatal ∧ c &&& RcKindMask = RcInternal) := by
  simp only [valid, restartable, beq_iff_eq, RcTemporary, RcFatal, RcInternal]
  generalize c &&& RcKindMask = k
  refine ⟨?_, ?_, ?_, ?_⟩
  · rintro ⟨rfl, h⟩; exact absurd h (by decide)
  · rintro ⟨rfl, h | h⟩ <;> exact absurd h (by decide)
  · rintro ⟨rfl, h | h⟩ <;> exact absurd h (by decide)
  · rintro ⟨rfl, h⟩; exact absurd h (by decide)

/-- The kind of a code does not depend on its detail bits (all bits above the lowest three). -/
theorem C60_kind_of_detail (c d : UInt32) (h : d &&& RcKindMask = 0) :
    valid (c ||| d) = valid c ∧ restartable (c ||| d) = restartable c := by
  have e : (c ||| d) &&& RcKindMask = c &&& RcKindMask := by
    apply UInt32.toBitVec_inj.mp
    have h' : d.toBitVec &&& RcKindMask.toBitVec = 0#32 := congrArg UInt32.toBitVec h
    rw [UInt32.toBitVec_and, UInt32.toBitVec_or, UInt32.toBitVec_and]
    ext i hi
    have := congrArg (fun b : BitVec 32 => b[i]) h'
    simp only [BitVec.getElem_and, BitVec.getElem_zero] at this
    simp only [BitVec.getElem_and, BitVec.getElem_or]
    revert this
    cases c.toBitVec[i] <;> cases d.toBitVec[i] <;> cases RcKindMask.toBitVec[i] <;> simp
  unfold valid restartable
  rw [e]; exact ⟨rfl, rfl⟩

/-- C60 (partial: shutdown is not distinguishable from cancel). Cancel, I/O error and timeout codes differ
pairwise and are internal; neither they nor the error codes sent to clients are valid or restartable. -/
theorem C60_codes_partial :
    RcCanceled ≠ RcIOError ∧ RcCanceled ≠ RcTimeout ∧ RcIOError ≠ RcTimeout ∧
    RcShutdown ≠ RcIOError ∧ RcShutdown ≠ RcTimeout ∧
    (∀ c ∈ [RcShutdown, RcCanceled, RcIOError, RcTimeout], c &&& RcKindMask = RcInternal) ∧
    (∀ c ∈ [RcProtocolError, RcInternalError], c &&& RcKindMask = RcFatal) := by decide

/-- C60 is violated: shutdown and cancel are the same code. -/
theorem C60_shutdown_is_cancel : RcShutdown = RcCanceled := rfl

example : valid 0x100 = true ∧ restartable 0x101 = true ∧ (0x102 : UInt32) &&& RcKindMask = RcFatal := by decide

/-! ### C61 -/

/-- What a completed configuration must satisfy. -/
structure Usable (c : Cfg) : Prop where
  addr : c.address ≠ ""
  net : c.network ≠ ""
  name : c.name ≠ ""
  conns : 0 < c.connections
  dial : c.dialTimeout ≠ 0

/-- `new` keeps whatever the user set in `old`. -/
def Keeps (old new : Cfg) : Prop :=
  new.address = old.address ∧ (old.network ≠ "" → new.network = old.network) ∧
  (old.name ≠ "" → new.name = old.name) ∧ (0 < old.connections → new.connections = old.connections) ∧
  (old.dialTimeout ≠ 0 → new.dialTimeout = old.dialTimeout) ∧
  (old.pingInterval ≠ 0 → new.pingInterval = old.pingInterval) ∧
  new.readTimeout = old.readTimeout ∧ new.writeTimeout = old.writeTimeout ∧ new.rcType = old.rcType ∧
  new.timeout = old.timeout

theorem colon_ne (a b : String) : a ++ ":" ++ b ≠ "" := by
  intro h
  have := congrArg String.length h
  simp at this

/-- The fields of the completed configuration. -/
def defNetwork (c : Cfg) : String :=
  if c.network = "" then (if ':' ∈ c.address.toList then "tcp" else "unix") else c.network
def defName (c : Cfg) : String := if c.name = "" then defNetwork c ++ ":" ++ c.address else c.name
def defConns (c : Cfg) : Int := if c.connections ≤ 0 then 1 else c.connections
def defDial (c : Cfg) : Int := if c.dialTimeout = 0 then 5000000000 else c.dialTimeout
def defPing (dp : Int) (c : Cfg) : Int := if c.pingInterval = 0 then dp else c.pingInterval

theorem setDefaults_eq (dp : Int) (c : Cfg) (ha : c.address ≠ "") :
    setDefaults dp c = some ⟨defNetwork c, c.address, defName c, defConns c, defDial c, c.readTimeout,
      c.writeTimeout, defPing dp c, c.rcType, c.timeout⟩ := by
  obtain ⟨net, addr, name, conns, dial, rd, wr, ping, rc, tmo⟩ := c
  simp only at ha
  simp only [setDefaults, if_neg ha, defNetwork, defName, defConns, defDial, defPing]
  by_cases h1 : net = "" <;> by_cases h6 : ':' ∈ addr.toList <;> by_cases h2 : name = "" <;>
    by_cases h3 : conns ≤ 0 <;> by_cases h4 : ping = 0 <;> by_cases h5 : dial = 0 <;>
    simp only [h1, h2, h3, h4, h5, h6, if_true, if_false]

theorem network_ne (c : Cfg) : defNetwork c ≠ "" := by
  unfold defNetwork
  split
  · split <;> decide
  · assumption

theorem name_ne (c : Cfg) : defName c ≠ "" := by
  unfold defName
  split
  · exact colon_ne _ _
  · assumption

theorem conns_pos (c : Cfg) : 0 < defConns c := by unfold defConns; split <;> omega
theorem dial_ne (c : Cfg) : defDial c ≠ 0 := by
  unfold defDial
  split
  · decide
  · assumption

/-- C61: an empty address is rejected and nothing else is; the result is usable, keeps every value the user set,
gets the network from the presence of a colon, and is a fixed point. -/
theorem C61_set_defaults (dp : Int) (c : Cfg) :
    (setDefaults dp c = none ↔ c.address = "") ∧
    ∀ c', setDefaults dp c = some c' → Usable c' ∧ Keeps c c' ∧ setDefaults dp c' = some c' ∧
      (dp ≠ 0 → c'.pingInterval ≠ 0) ∧
      (c.network = "" → c'.network = if ':' ∈ c.address.toList then "tcp" else "unix") ∧
      (c.name = "" → c'.name = c'.network ++ ":" ++ c'.address) := by
  by_cases ha : c.address = ""
  · simp [setDefaults, ha]
  · refine ⟨by simp [setDefaults, ha], ?_⟩
    intro c' hc
    rw [setDefaults_eq dp c ha, Option.some.injEq] at hc
    subst hc
    have hnet := network_ne c
    have hname := name_ne c
    have hconn := conns_pos c
    have hdial := dial_ne c
    refine ⟨⟨ha, hnet, hname, hconn, hdial⟩, ⟨rfl, ?_, ?_, ?_, ?_, ?_, rfl, rfl, rfl, rfl⟩, ?_, ?_, ?_, ?_⟩
    · intro h; simp [defNetwork, h]
    · intro h; simp [defName, h]
    · intro h; simp only [defConns]; rw [if_neg (by omega)]
    · intro h; simp [defDial, h]
    · intro h; simp [defPing, h]
    · rw [setDefaults_eq _ _ (by exact ha)]
      congr 1
      simp only [Cfg.mk.injEq, true_and, and_true]
      refine ⟨?_, ?_, ?_, ?_, ?_⟩
      · generalize defNetwork c = n at hnet; simp [defNetwork, hnet]
      · generalize defName c = n at hname; simp [defName, hname]
      · generalize defConns c = n at hconn; simp only [defConns]; rw [if_neg (by omega)]
      · generalize defDial c = n at hdial; simp [defDial, hdial]
      · simp only [defPing]; split <;> simp_all
    · intro h; simp only [defPing]; split <;> assumption
    · intro h; simp [defNetwork, h]
    · intro h; simp [defName, h]

example : setDefaults 1000000000 ⟨"", "localhost:33013", "", 0, 0, 0, 0, 0, 0, 0⟩ =
    some ⟨"tcp", "localhost:33013", "tcp:localhost:33013", 1, 5000000000, 0, 0, 1000000000, 0, 0⟩ := by decide

/-! ### C62 -/

theorem ofInt_toInt (t : Int) (h1 : -(2 ^ 63) ≤ t) (h2 : t < 2 ^ 63) : (Int64.ofInt t).toInt = t :=
  Int64.toInt_ofInt_of_le h1 h2

/-- C62 (partial: only for times after 2010-01-01, see the counterexample). Converting there and back is
the identity for every time the 64-bit range covers. -/
theorem C62_time_roundtrip_partial (t : Int) (h1 : 0 < t) (h2 : t < 2 ^ 63) : etime (newEpoch t) = t := by
  have e : (newEpoch t).toInt = t := by
    unfold newEpoch subEpoch
    rw [show max (-(2 ^ 63)) (min (2 ^ 63 - 1) t) = t by omega]
    exact ofInt_toInt t (by omega) h2
  unfold etime
  have : newEpoch t > 0 := by
    rw [GT.gt, Int64.lt_iff_toInt_lt, e]; exact h1
  rw [if_pos this, e]

/-- Conversion is monotone everywhere and exact in range, so comparing deadlines by `Before` agrees with
comparing times. -/
theorem C62_before_exact (s t : Int) (hs : -(2 ^ 63) ≤ s ∧ s < 2 ^ 63) (ht : -(2 ^ 63) ≤ t ∧ t < 2 ^ 63) :
    (before (newEpoch s) (newEpoch t) = true ↔ s < t) := by
  have e : ∀ t : Int, -(2 ^ 63) ≤ t ∧ t < 2 ^ 63 → (newEpoch t).toInt = t := by
    intro t ht
    unfold newEpoch subEpoch
    rw [show max (-(2 ^ 63)) (min (2 ^ 63 - 1) t) = t by omega]
    exact ofInt_toInt t ht.1 ht.2
  unfold before
  rw [decide_eq_true_iff, Int64.lt_iff_toInt_lt, e s hs, e t ht]

/-- C62: arithmetic is exact modulo 2^64 in general and exact when the result fits. -/
theorem C62_arith_exact (e d now : Int64) :
    (eadd e d).toInt = (e.toInt + d.toInt).bmod (2 ^ 64) ∧
    (esub e d).toInt = (e.toInt - d.toInt).bmod (2 ^ 64) ∧
    (-(2 ^ 63) ≤ e.toInt + d.toInt → e.toInt + d.toInt < 2 ^ 63 → (eadd e d).toInt = e.toInt + d.toInt) ∧
    (-(2 ^ 63) ≤ e.toInt - d.toInt → e.toInt - d.toInt < 2 ^ 63 → (esub e d).toInt = e.toInt - d.toInt) ∧
    esub (eadd e d) d = e ∧ esub (eadd e d) e = d ∧
    remains e now = esub e now ∧ elapsed e now = esub now e ∧
    eadd now (remains e now) = e := by
  refine ⟨Int64.toInt_add _ _, Int64.toInt_sub _ _, ?_, ?_, ?_, ?_, rfl, rfl, ?_⟩
  · intro h1 h2
    rw [eadd, Int64.toInt_add]
    exact Int.bmod_eq_of_le (by omega) (by omega)
  · intro h1 h2
    rw [esub, Int64.toInt_sub]
    exact Int.bmod_eq_of_le (by omega) (by omega)
  · exact Int64.add_sub_cancel _ _
  · unfold esub eadd; rw [Int64.add_comm]; exact Int64.add_sub_cancel _ _
  · unfold eadd remains; rw [Int64.add_comm]; exact Int64.sub_add_cancel _ _

/-- C62: `WillExpire(after)` says whether a set deadline is less than `after` away, when that difference fits. -/
theorem C62_will_expire_exact (e after now : Int64) (h1 : -(2 ^ 63) ≤ e.toInt - after.toInt)
    (h2 : e.toInt - after.toInt < 2 ^ 63) :
    (willExpire e after now = true ↔ 0 < e.toInt ∧ e.toInt < now.toInt + after.toInt) := by
  have := (C62_arith_exact e after now).2.2.2.1 h1 h2
  unfold esub at this
  unfold willExpire
  rw [Bool.and_eq_true, decide_eq_true_iff, decide_eq_true_iff, GT.gt, Int64.lt_iff_toInt_lt, Int64.lt_iff_toInt_lt, this]
  show (0 : Int) < _ ∧ _ ↔ _
  omega

/-- C62: `SubTime` is the exact difference when time and difference fit. -/
theorem C62_sub_time_exact (e : Int64) (t : Int) (ht : -(2 ^ 63) ≤ t ∧ t < 2 ^ 63)
    (h1 : -(2 ^ 63) ≤ e.toInt - t) (h2 : e.toInt - t < 2 ^ 63) : (subTime e t).toInt = e.toInt - t := by
  unfold subTime subEpoch
  rw [show max (-(2 ^ 63)) (min (2 ^ 63 - 1) t) = t by omega, Int64.toInt_sub, ofInt_toInt t ht.1 ht.2]
  exact Int.bmod_eq_of_le (by omega) (by omega)

/-- C62 is violated for the first instant of 2010 and all times before it: they come back as the zero time. -/
theorem C62_early_times_violated : (∀ t : Int, -(2 ^ 63) ≤ t → t ≤ 0 → etime (newEpoch t) = zeroTime) ∧
    etime (newEpoch (-1000000000)) ≠ -1000000000 := by
  have h : ∀ t : Int, -(2 ^ 63) ≤ t → t ≤ 0 → etime (newEpoch t) = zeroTime := by
    intro t h1 h2
    have e : (newEpoch t).toInt = t := by
      unfold newEpoch subEpoch
      rw [show max (-(2 ^ 63)) (min (2 ^ 63 - 1) t) = t by omega]
      exact ofInt_toInt t h1 (by omega)
    unfold etime
    rw [if_neg]
    rw [GT.gt, Int64.lt_iff_toInt_lt, e]
    show ¬ (0 : Int) < t
    omega
  exact ⟨h, by rw [h _ (by decide) (by decide)]; decide⟩

example : etime (newEpoch 123456789) = 123456789 ∧ willExpire 100 10 95 = true ∧ willExpire 100 10 85 = false := by
  decide

/-! ### C63 -/

theorem swaps_perm (m : Array MResp) (l : List (Nat × Nat)) : (swaps m l).Perm m := by
  induction l generalizing m with
  | nil => exact Array.Perm.refl m
  | cons x xs ih =>
    obtain ⟨i, j⟩ := x
    refine (ih (swap m i j)).trans ?_
    unfold swap Array.swapIfInBounds
    split
    · split
      · exact Array.swap_perm _ _
      · exact Array.Perm.refl m
    · exact Array.Perm.refl m

theorem sorted_of_done (s : Array MResp) (done : ∀ i, less s (i + 1) i = false) :
    ∀ i j (hi : i < j) (hj : j < s.size), s[i].id ≤ s[j].id := by
  have step : ∀ i (h : i + 1 < s.size), s[i].id ≤ s[i + 1].id := by
    intro i h
    have := done i
    unfold less at this
    rw [Array.getElem?_eq_getElem h, Array.getElem?_eq_getElem (by omega)] at this
    simp only [decide_eq_false_iff_not] at this
    exact UInt32.not_lt.mp this
  intro i j hi hj
  induction j with
  | zero => omega
  | succ j ih =>
    by_cases e : i = j
    · subst e; exact step i hj
    · exact UInt32.le_trans (ih (by omega) (by omega)) (step j hj)

/-- C63: `Sort` returns a permutation of the responses ordered by Id. `sort.Sort` itself is trusted for exactly
its documented contract: it changes the data by `Swap` only and stops with no element `Less` than its
predecessor. -/
theorem C63_sort (m : Array MResp) (l : List (Nat × Nat))
    (done : ∀ i, less (swaps m l) (i + 1) i = false) :
    (swaps m l).Perm m ∧
    ∀ i j (hi : i < j) (hj : j < (swaps m l).size), (swaps m l)[i].id ≤ (swaps m l)[j].id :=
  ⟨swaps_perm m l, sorted_of_done _ done⟩

example : swaps #[⟨2, 7⟩, ⟨0, 8⟩, ⟨1, 9⟩] [(0, 1), (1, 2)] = #[⟨0, 8⟩, ⟨1, 9⟩, ⟨2, 7⟩] ∧
    (∀ i, less (swaps #[⟨2, 7⟩, ⟨0, 8⟩, ⟨1, 9⟩] [(0, 1), (1, 2)]) (i + 1) i = false) := by
  refine ⟨by decide, ?_⟩
  have e : swaps #[⟨2, 7⟩, ⟨0, 8⟩, ⟨1, 9⟩] [(0, 1), (1, 2)] = #[⟨0, 8⟩, ⟨1, 9⟩, ⟨2, 7⟩] := by decide
  rw [e]
  intro i
  match i with
  | 0 => decide
  | 1 => decide
  | n + 2 => simp [less]

end Verif.Props
