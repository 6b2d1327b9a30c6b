import Verif.Spec.User
import Verif.Props.Reflect

/-! C103, C104: types with code of their own. -/
namespace Verif.User
open Verif.Marshal Verif.Reflect Verif.Spec

variable {u : User} {enc : Val → Bytes} {z : Val} {P : Val → Prop}

theorem user_write (h : Faithful u enc z P) {v : Val} (hv : P v) {addr : Bool} (ha : u.byPtr = true → addr = true) (w : Wr) (hw : w.Ok) :
    ∃ w', (userW u).write addr v w = some w' ∧ Wr.Ext w w' (enc v) := by
  have e : (userW u).write addr v w = u.write v w := by
    simp only [userW, TW.fillauto]
    split <;> (simp only; rw [if_neg]; rintro ⟨h1, h2⟩; simp [ha h1] at h2)
  rw [e]
  exact h.writes v hv w hw

theorem user_auto (h : Faithful u enc z P) {v : Val} (hv : P v) (hc : ∀ c, u.count = some c → c v < 2 ^ 32) {addr : Bool}
    (ha : u.byPtr = true → addr = true) (w : Wr) (hw : w.Ok) :
    ∃ w', (userW u).auto addr v w = some w' ∧ Wr.Ext w w' (userEnc u enc v) := by
  obtain hn | ⟨c, hcnt⟩ : u.count = none ∨ ∃ c, u.count = some c := by cases u.count <;> simp
  · obtain ⟨w', h1, e1⟩ := user_write h hv ha w hw
    refine ⟨w', ?_, by simpa [userEnc, hn] using e1⟩
    rw [← h1]; simp [userW, TW.fillauto, hn]
  · obtain ⟨w', h1, e1⟩ := withCount_ext (userW u) .i32 (by decide) addr v w (c v) (enc v) hw
      (by simp [userW, TW.fillauto, TW.count, TW.baseCount, hcnt]) (hc c hcnt) (fun w hw => user_write h hv ha w hw)
    refine ⟨w', ?_, by simpa [userEnc, hcnt, pfxBytes] using e1⟩
    rw [← h1]; simp [userW, TW.fillauto, hcnt]; rfl

theorem setter_found (hf : Found u) : setter u = u.setCount := by
  simp only [setter]
  split
  · rename_i h
    cases hs : u.setCount with
    | none => rfl
    | some s => exact absurd h (hf (by simp [hs]))
  · rfl

theorem user_byCount (h : Faithful u enc z P) (hf : Found u) {v : Val} (hv : P v) {c : Val → Nat} (hc : u.count = some c) (rest : Bytes) :
    (userR u).byCount (c v) ⟨enc v ++ rest, none⟩ z = some (⟨rest, none⟩, v) := by
  have hb := h.both
  rw [hc] at hb
  obtain ⟨s, hs⟩ := Option.isSome_iff_exists.mp hb.symm
  obtain ⟨v0, h1, h2⟩ := h.counted c s hc hs v hv rest
  simp [userR, setter_found hf, hs, TR.byCount, h1, h2]

theorem user_readAuto (h : Faithful u enc z P) (hf : Found u) {v : Val} (hv : P v) (hc : ∀ c, u.count = some c → c v < 2 ^ 32) (rest : Bytes) :
    (userR u).auto ⟨userEnc u enc v ++ rest, none⟩ z = some (⟨rest, none⟩, v) := by
  have hb := h.both
  obtain hn | ⟨c, hcnt⟩ : u.count = none ∨ ∃ c, u.count = some c := by cases u.count <;> simp
  · have hs : u.setCount = none := by simpa [hn] using hb
    simp [userR, setter_found hf, hs, userEnc, hn, h.reads hs v hv]
  · obtain ⟨s, hs⟩ := Option.isSome_iff_exists.mp (by rw [hcnt] at hb; exact hb.symm)
    have := withCount_ok (userR u) .i32 (by decide) (c v) (hc c hcnt) (enc v) z v rest (user_byCount h hf hv hcnt rest)
    simp only [userEnc, hcnt]
    rw [← this]
    simp [userR, setter_found hf, hs, pfxBytes]
    rfl

/-- C103 (partial: not for a long-form `ISetCounter` with methods of the pointer, see below). If the methods of a type write and read
some encoding then `Write` and `Read` write and read it, with the count in front if there is one. A value whose methods are those
of the pointer must be addressable. -/
theorem C103_roundtrip_partial (h : Faithful u enc z P) (hf : Found u) (v : Val) (hv : P v) (hc : ∀ c, u.count = some c → c v < 2 ^ 32)
    (addr : Bool) (ha : u.byPtr = true → addr = true) (w : Wr) (hw : w.Ok) :
    ∃ w', (userW u).auto addr v w = some w' ∧ w'.Ok ∧ w'.pending = w.pending ++ userEnc u enc v ∧
      ∀ rest, (userR u).auto ⟨userEnc u enc v ++ rest, none⟩ z = some (⟨rest, none⟩, v) := by
  obtain ⟨w', h1, e⟩ := user_auto h hv hc ha w hw
  exact ⟨w', h1, e.ok, e.data, user_readAuto h hf hv hc⟩

/-- C103. The same for a field with a size. -/
theorem C103_size_roundtrip (h : Faithful u enc z P) (p : Pfx) (hp : p ≠ .i64) (v : Val) (hv : P v) (hl : fits p (enc v).length)
    (addr : Bool) (ha : u.byPtr = true → addr = true) (w : Wr) (hw : w.Ok) :
    ∃ w', (userW u).withSize p addr v w = some w' ∧ w'.Ok ∧ w'.pending = w.pending ++ (pfxBytes p (enc v).length ++ enc v) ∧
      ∀ rest, (userR u).withSize p ⟨pfxBytes p (enc v).length ++ enc v ++ rest, none⟩ z = some (⟨rest, none⟩, v) := by
  have hs : 0 ≤ (userW u).size v → (userW u).size v = (enc v).length := by
    have e : (userW u).size v = match u.size with
        | some f => (f v : Int)
        | none => -1 := by
      have e1 : (userW u).ptr = none := by simp only [userW, TW.fillauto]; split <;> rfl
      have e2 : (userW u).sz = -1 := by simp only [userW, TW.fillauto]; split <;> rfl
      have e3 : (userW u).szGet = u.size := by simp only [userW, TW.fillauto]; split <;> rfl
      simp only [TW.size, TW.baseSize, e1, e2, e3, show ¬ (0 : Int) ≤ -1 by decide, if_false]
      cases u.size <;> rfl
    rw [e]
    cases hz : u.size with
    | none => simp
    | some f => simp [h.size f hz v hv]
  obtain ⟨w', h1, e⟩ := withSize_ext (userW u) p hp addr v w (enc v) hw hs hl (fun w hw => user_write h hv ha w hw)
  refine ⟨w', h1, e.ok, e.data, fun rest => ?_⟩
  refine withSize_ok (userR u) p hp (enc v) hl z v rest ?_
  cases hz : u.setSize with
  | none =>
    have ht := h.tails hz v hv
    have e1 : (userR u).autoSize = none := by simp only [userR]; split <;> rfl
    have e2 : (userR u).setSize = plainSetSize (-1) := by simp only [userR, hz]; split <;> rfl
    have e3 : (userR u).tail = u.readTail.getD u.read := by simp only [userR]; split <;> rfl
    exact bySize_sub (userR u) (enc v) rest z v e1 e2 (by rw [e3]; exact ht)
  | some s =>
    obtain ⟨v0, h2, h3⟩ := h.sized s hz v hv rest
    have e1 : (userR u).autoSize = none := by simp only [userR]; split <;> rfl
    have e2 : (userR u).setSize = s := by simp only [userR, hz]; split <;> rfl
    have e3 : (userR u).fixed = u.read := by simp only [userR]; split <;> rfl
    simp only [TR.bySize, e1, e2, e3, h2, h3]

/-- C103 (partial, as above). The same for a field with a count of its own. -/
theorem C103_count_roundtrip_partial (h : Faithful u enc z P) (hf : Found u) (p : Pfx) (hp : p ≠ .i64) (c : Val → Nat) (hc : u.count = some c)
    (v : Val) (hv : P v) (hl : fits p (c v)) (addr : Bool) (ha : u.byPtr = true → addr = true) (w : Wr) (hw : w.Ok) :
    ∃ w', (userW u).withCount p addr v w = some w' ∧ w'.Ok ∧ w'.pending = w.pending ++ (pfxBytes p (c v) ++ enc v) ∧
      ∀ rest, (userR u).withCount p ⟨pfxBytes p (c v) ++ enc v ++ rest, none⟩ z = some (⟨rest, none⟩, v) := by
  obtain ⟨w', h1, e⟩ := withCount_ext (userW u) p hp addr v w (c v) (enc v) hw
    (by simp [userW, TW.fillauto, TW.count, TW.baseCount, hc]) hl (fun w hw => user_write h hv ha w hw)
  exact ⟨w', h1, e.ok, e.data, fun rest => withCount_ok (userR u) p hp (c v) hl (enc v) z v rest (user_byCount h hf hv hc rest)⟩

/-- C103 (partial, as above). Slices of such a type: the number of elements, and then the elements. -/
theorem C103_slice_partial (h : Faithful u enc z P) (hf : Found u) (vs : List Val) (hv : ∀ v ∈ vs, P v)
    (hc : ∀ c, u.count = some c → ∀ v ∈ vs, c v < 2 ^ 32) (hn : vs.length < 2 ^ 32) (addr : Bool) (w : Wr) (hw : w.Ok) :
    ∃ w' d, (slW none (userW u)).auto addr (.seq vs) w = some w' ∧ w'.Ok ∧ w'.pending = w.pending ++ d ∧
      d = le 4 vs.length ++ (vs.map (userEnc u enc)).flatten ∧
      ∀ rest, (slR none z (userR u)).auto ⟨d ++ rest, none⟩ (.seq []) = some (⟨rest, none⟩, .seq vs) := by
  obtain ⟨w', h1, e⟩ := withCount_ext (slW none (userW u)) .i32 (by decide) addr (.seq vs) w vs.length (vs.map (userEnc u enc)).flatten hw
    (by simp [slW, TW.fillauto, TW.count, TW.baseCount, vlen]) hn (fun w hw => by
      obtain ⟨w', h1, e⟩ := writeEach_spec ((userW u).auto true) (userEnc u enc) vs w hw
        (fun v hm w hw => user_auto h (hv v hm) (fun c hcc => hc c hcc v hm) (fun _ => rfl) w hw)
      exact ⟨w', by simpa [slW, TW.fillauto, elemsW] using h1, e⟩)
  refine ⟨w', _, ?_, e.ok, e.data, rfl, fun rest => ?_⟩
  · rw [← h1]; simp [slW, TW.fillauto]; rfl
  · refine withCount_ok (slR none z (userR u)) .i32 (by decide) vs.length hn _ (.seq []) (.seq vs) rest ?_
    have := readEach_ok (userR u).auto z (userEnc u enc) vs rest
      (fun v hm rest => user_readAuto h hf (hv v hm) (fun c hcc => hc c hcc v hm) rest)
    have hm : makeSlice z (.seq []) vs.length = some (.seq (List.replicate vs.length z)) := by
      cases vs with
      | nil => rfl
      | cons v vs =>
        simp only [makeSlice]
        have e : vlen (.seq []) = 0 := rfl
        rw [if_neg (by simp only [e, List.length_cons]; omega), if_neg (by omega)]
        simp
    simp [slR, TR.autoCnt, TR.byCount, slSetCount, hm, elemsR, this]

/-! ### What goes wrong -/

/-- A long-form `ISetCounter` with methods of the pointer is never asked: `Read` takes the count, which the writer has written, for the
beginning of the value, and a `cnt` field panics. -/
theorem C103_counter_violated (hl : u.long = true) (hp : u.byPtr = true) :
    (userR u).auto = u.read ∧ ∀ p r v, r.err = none → (userR u).withCount p r v = none := by
  have hs : setter u = none := by simp [setter, hl, hp]
  refine ⟨by simp [userR, hs], fun p r v hr => ?_⟩
  simp [userR, hs, TR.withCount, TR.byCount, hr]

/-- A string with methods of its own: `IWrite` writes the bytes, `ICount` is the length, `ISetCount` makes room, `IRead` fills it. -/
def exUser (long byPtr : Bool) : User :=
  { long, byPtr
    write := fun v w => match v with | .str b => w.bytes b | _ => none
    size := none
    count := some fun v => match v with | .str b => b.length | _ => 0
    read := fun r v => match v with | .str b => some ((r.bytes b).1, .str (r.bytes b).2) | _ => none
    readTail := some fun r _ => some (r.tail.1, .str r.tail.2)
    setSize := none
    setCount := some fun _ n => some (none, .str (List.replicate n.toNat 0)) }

/-- The methods are what they should be. -/
theorem exUser_faithful (long byPtr : Bool) : Faithful (exUser long byPtr) (fun v => match v with | .str b => b | _ => []) (.str [])
    (fun v => ∃ b, v = .str b) where
  writes := by
    rintro _ ⟨b, rfl⟩ w hw
    exact Wr.bytes_spec w b hw
  size := by intro f h; simp [exUser] at h
  both := rfl
  reads := by intro h; simp [exUser] at h
  counted := by
    rintro c s hc hs _ ⟨b, rfl⟩ rest
    simp only [exUser, Option.some.injEq] at hc hs
    subst hc hs
    refine ⟨_, rfl, ?_⟩
    have e : ¬ b.length + rest.length < b.length := by omega
    simp [exUser, Rd.bytes, if_neg e]
  sized := by intro s h; simp [exUser] at h
  tails := by
    rintro _ _ ⟨b, rfl⟩
    simp [exUser, Rd.tail]

/-- Nevertheless, what was written is not read back. -/
theorem C103_counter_witness :
    ((userW (exUser true true)).auto true (.str [97, 98]) (Wr.new 0)).map (·.pending) = some [2, 0, 0, 0, 97, 98] ∧
    (userR (exUser true true)).auto ⟨[2, 0, 0, 0, 97, 98], none⟩ (.str []) = some (⟨[2, 0, 0, 0, 97, 98], none⟩, .str []) ∧
    (userR (exUser false true)).auto ⟨[2, 0, 0, 0, 97, 98], none⟩ (.str []) = some (⟨[], none⟩, .str [97, 98]) := by
  decide +kernel

/-- `C103_roundtrip_partial`: the short form. -/
example : Found (exUser false true) ∧ (∀ c, (exUser false true).count = some c → c (.str [97, 98]) < 2 ^ 32) := by
  refine ⟨by simp [Found, exUser], fun c h => ?_⟩
  simp only [exUser, Option.some.injEq] at h
  subst h
  decide

/-! ### C104: pointers -/

/-- C104 (partial: no count, no size). A pointer to a type with code of its own is written as what it points to. -/
theorem C104_plain_partial (h : Faithful u enc z P) (hc : u.count = none) (v : Val) (hv : P v) (w : Wr) (hw : w.Ok) :
    ∃ w', (fillPtr u).auto (.ref v) w = some w' ∧ w'.Ok ∧ w'.pending = w.pending ++ enc v := by
  obtain ⟨w', h1, e⟩ := h.writes v hv w hw
  exact ⟨w', by simp [PtrW.auto, fillPtr, hc, h1], e.ok, e.data⟩

/-- If the type has `ICounter` then writing a pointer to it panics; if the field has a size or a count then it panics for every such type.
The value itself, or a pointer to any other type, can be written. -/
theorem C104_pointer_violated (v : Val) (w : Wr) :
    (u.count.isSome → (fillPtr u).auto (.ref v) w = none) ∧
    (∀ p, (fillPtr u).withSize p (.ref v) w = none) ∧ ∀ p, (fillPtr u).withCount p (.ref v) w = none := by
  refine ⟨fun h => ?_, fun p => rfl, fun p => rfl⟩
  simp [PtrW.auto, fillPtr, h, PtrW.withCount, PtrW.count]

/-- A nil pointer to a type whose methods take the value cannot be written: the method is called with it, which panics (a nil pointer to
any other type is written as nothing). -/
theorem C104_nil_violated (_ : u.byPtr = false) (w : Wr) :
    (fillPtr u).auto .nilp w = none ∧ (∀ p, (fillPtr u).withSize p .nilp w = none) ∧ ∀ p, (fillPtr u).withCount p .nilp w = none := by
  refine ⟨?_, fun p => ?_, fun p => ?_⟩
  · simp only [PtrW.auto, PtrW.withCount, PtrW.count, fillPtr]
    cases Pfx.i32.write w (Int64.ofInt 0) <;> exact ite_self _
  · simp only [PtrW.withSize, PtrW.size, fillPtr]
    cases p.write w (Int64.ofInt 0) <;> simp
  · simp only [PtrW.withCount, PtrW.count, fillPtr]
    cases p.write w (Int64.ofInt 0) <;> rfl

end Verif.User
