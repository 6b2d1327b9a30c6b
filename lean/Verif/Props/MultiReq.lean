import Verif.Proofs.MultiReqEnds
import Verif.Props.Request
/-! Theorems about a multi-request with its requests (C120). -/
namespace Verif.MultiReq
open Verif.Request (Ev Op deliveries)
open Verif.Multi (rcCanceled rcTimeout)

theorem dcode_not {l : List Ev} {x : Request.Resp} (h : dcode l = none) : .delivered x ∉ l := by
  induction l with
  | nil => simp
  | cons e l ih =>
    cases e
    case delivered y => cases h
    all_goals
      intro hm
      rcases List.mem_cons.1 hm with hm | hm
      · cases hm
      · exact ih h hm

theorem got_code {s : St} {i : Nat} {x : Request.Resp} (I : Inv s) (h : Got s i x) : s.m.code i = some x.code := by
  obtain ⟨h1, h2⟩ := h
  rw [I.code i]
  revert h1 h2
  generalize (s.r i).d.log = l
  intro h1 h2
  induction l with
  | nil => cases h1
  | cons e l ih =>
    cases e
    case delivered y =>
      simp only [deliveries] at h2
      rcases List.mem_cons.1 h1 with h | h
      · cases h; rfl
      · exact absurd h (dcode_not ((dcode_none l).2 (by omega)))
    all_goals
      rcases List.mem_cons.1 h1 with h | h
      · cases h
      · exact ih h h2

theorem request_run_append {s t : Request.St} {cs ds : List Request.Choice} (h : Request.run s cs = some t) : Request.run s (cs ++ ds) = Request.run t ds := by
  induction cs generalizing s with
  | nil => cases h; rfl
  | cons c cs ih =>
    simp only [Request.run] at h
    simp only [List.cons_append, Request.run]
    cases e : Request.step s c with
    | none => rw [e] at h; cases h
    | some u => rw [e] at h; exact ih h

/-- Each request runs as in Model/Request.lean. -/
theorem req_run {msg : Nat → UInt32} {cs : List Choice} {s s' : St} {i : Nat} {es : List Request.Choice}
    (h0 : Request.run (fresh msg i) es = some (s.r i)) (h : run s cs = some s') : ∃ es, Request.run (fresh msg i) es = some (s'.r i) := by
  induction cs generalizing s es with
  | nil => cases h; exact ⟨es, h0⟩
  | cons c cs ih =>
    simp only [run] at h
    cases e : step s c with
    | none => rw [e] at h; cases h
    | some t =>
      rw [e] at h
      rcases req_step e i with h1 | ⟨d, _, h1⟩
      · exact ih (by rw [h1]; exact h0) h
      · refine ih (es := es ++ [d]) ?_ h
        rw [request_run_append h0]
        simp only [Request.run, h1, Option.bind_some]

theorem got_of {msg : Nat → UInt32} {cs : List Choice} {s : St} {i : Nat} (h : run (init msg) cs = some s) (hc : s.m.code i ≠ none) :
    ∃ x, Got s i x ∧ x.id = UInt32.ofNat i ∧ x.msg = msg i := by
  have I := (prog_run (prog_init msg) h).inv
  obtain ⟨es, he⟩ := req_run (es := []) (i := i) rfl h
  have h1 := Props.C28_at_most_one_response _ _ _ _ _ he
  rw [I.code i] at hc
  cases e : dcode (s.r i).d.log with
  | none => exact absurd e hc
  | some c =>
    obtain ⟨x, h2, _⟩ := dcode_some e
    have h3 : deliveries (s.r i).d.log ≠ 0 := fun h0 => by rw [(dcode_none _).2 h0] at e; cases e
    obtain ⟨newer, older, h4⟩ := List.append_of_mem h2
    obtain ⟨h5, h6, _⟩ := Props.C29_response_content _ _ _ _ _ he x newer older h4
    exact ⟨x, ⟨h2, by omega⟩, h5, h6⟩

/-- C120: `Results` returns each request once, and each has been delivered exactly one response, with the id and the message of the request. -/
theorem C120_results {msg : Nat → UInt32} {cs : List Choice} {s : St} {l : List Nat} (h : run (init msg) cs = some s) (hg : s.m.got = some l) :
    l.Nodup ∧ l.length = s.m.ret ∧ (∀ i, i ∈ l ↔ i < s.m.ret) ∧ ∀ i ∈ l, ∃ x, Got s i x ∧ x.id = UInt32.ofNat i ∧ x.msg = msg i := by
  obtain ⟨ds, hd, _⟩ := proj h
  obtain ⟨h1, h2, h3⟩ := Props.C41_one_each hd hg
  refine ⟨h1, h2, h3, fun i hi => got_of h fun e => ?_⟩
  have I := (prog_run (prog_init msg) h).inv.multi
  have h4 := I.got l hg
  have h5 := I.all.2 (I.fin h4.1).1 i ((h4.2.2 i).1 hi)
  have h6 := (I.logMem i).1 h5
  rw [(I.code i).1 e] at h6
  cases h6

/-- C120: the response of a request has the code of a call that answers this request, or that of the cancellation or expiry of the multi-request. -/
theorem C120_codes {msg : Nat → UInt32} {cs : List Choice} {s : St} {i : Nat} {x : Request.Resp} (h : run (init msg) cs = some s) (hx : Got s i x) :
    (∃ t op, code op = some x.code ∧ .req i (.call t op) ∈ cs) ∨ (s.m.cancel = true ∧ x.code = rcCanceled) ∨ (s.m.expire = true ∧ x.code = rcTimeout) := by
  obtain ⟨ds, hd, ha⟩ := proj h
  rcases Props.C43_codes hd (got_code (prog_run (prog_init msg) h).inv hx) with h1 | h1
  · exact .inl (ha i _ h1)
  · exact .inr h1

/-- C120, in part (the comparison of `Cancel` reads `w.c` first, see C43): once `Cancel` or `Expire` of the multi-request has returned, each of its requests has been
delivered exactly one response. -/
theorem C120_cancel_partial {msg : Nat → UInt32} {cs : List Choice} {s : St} {k i : Nat} (h : run (init msg) cs = some s)
    (hk : s.m.cp k = .done true) (hi : i < s.m.ret) : ∃ x, Got s i x := by
  obtain ⟨ds, hd, _⟩ := proj h
  obtain ⟨x, hx, _⟩ := got_of h (Props.C43_all_answered_partial hd hk hi)
  exact ⟨x, hx⟩

/-- C120: `Cancel` and `Expire` of the multi-request, which answer requests and run through the `Respond` of the multi-request itself, come to their end, whatever other
goroutines hold; or somebody panics (C42, C67). -/
theorem C120_cancel_ends {msg : Nat → UInt32} {cs : List Choice} {s : St} {k : Nat} (h : run (init msg) cs = some s) (hk : s.m.cp k ≠ .idle) :
    ∃ ds s', (∀ c ∈ ds, Inner c) ∧ run s ds = some s' ∧ ((∃ b, s'.m.cp k = .done b) ∨ Multi.Panicked s'.m) :=
  canc_ends (prog_run (prog_init msg) h) hk

/-- C120: `Request` and `Each` return; or somebody panics. -/
theorem C120_request_ends {msg : Nat → UInt32} {cs : List Choice} {s : St} (h : run (init msg) cs = some s) (ho : Creating s.m.own) :
    ∃ ds s', (∀ c ∈ ds, Inner c) ∧ run s ds = some s' ∧ (s'.m.own = .idle ∨ Multi.Panicked s'.m) :=
  request_ends (prog_run (prog_init msg) h) ho

theorem C120_each_ends {msg : Nat → UInt32} {cs : List Choice} {s : St} (h : run (init msg) cs = some s) (ho : Ranging s.m.own) :
    ∃ ds s', (∀ c ∈ ds, Inner c) ∧ run s ds = some s' ∧ (s'.m.own = .fin .each ∨ Multi.Panicked s'.m) :=
  each_ends (prog_run (prog_init msg) h) ho

/-- C120: `Results` returns once every request has been delivered a response; or somebody panics. -/
theorem C120_results_end {msg : Nat → UInt32} {cs : List Choice} {s : St} (h : run (init msg) cs = some s) (ho : Collecting s.m.own)
    (hg : ∀ i, i < s.m.ret → ∃ x, Got s i x) :
    ∃ ds s', (∀ c ∈ ds, Inner c) ∧ run s ds = some s' ∧ (s'.m.own = .fin .results ∨ Multi.Panicked s'.m) := by
  have p := prog_run (prog_init msg) h
  refine results_ends p ho fun i hi => ?_
  obtain ⟨x, hx⟩ := hg i hi
  rw [got_code p.inv hx]
  simp

/-- C120, in part (as `C120_cancel_partial`): a `Cancel` or `Expire` that has returned ends `Results`. -/
theorem C120_cancel_ends_results_partial {msg : Nat → UInt32} {cs : List Choice} {s : St} {k : Nat} (h : run (init msg) cs = some s) (ho : Collecting s.m.own)
    (hk : s.m.cp k = .done true) :
    ∃ ds s', (∀ c ∈ ds, Inner c) ∧ run s ds = some s' ∧ (s'.m.own = .fin .results ∨ Multi.Panicked s'.m) :=
  C120_results_end h ho fun _ hi => C120_cancel_partial h hk hi

/-- C120: a goroutine in a method of one of the requests (a server that answers, a timer, `Cancel` of the request) comes back; or somebody panics. -/
theorem C120_call_ends {msg : Nat → UInt32} {cs : List Choice} {s : St} {i t : Nat} (h : run (init msg) cs = some s) (hp : (s.r i).pc t ≠ .idle) :
    ∃ ds s', (∀ c ∈ ds, Inner c) ∧ run s ds = some s' ∧ ((s'.r i).pc t = .idle ∨ Multi.Panicked s'.m) := by
  have p := prog_run (prog_init msg) h
  obtain ⟨ds, s', h1, h2, h3⟩ := can_return p hp
  exact ⟨ds, s', h1, h2, h3.imp_left fun h => h.2.1⟩

/-! ### Examples -/

def mk : List Choice := [.multi (.request false), .multi .owner, .multi .owner]
def reps (n : Nat) (c : Choice) : List Choice := List.replicate n c

/-- Goroutine `t` takes request `i` and answers it with code 7. -/
def serve (i t : Nat) : List Choice :=
  [.req i (.call t .setPending), .req i (.go t), .req i (.call t .claim), .req i (.go t), .req i (.call t (.respond 7 none))] ++ reps 4 (.req i (.go t)) ++
    [.req i (.responder t [])] ++ reps 6 (.multi (.resp i)) ++ reps 3 (.req i (.go t))

/-- Two requests: the first is served; `Results` waits for the second, which is canceled; in the meantime a server tries to answer the second, too late. -/
def cancelRun : List Choice :=
  mk ++ mk ++ serve 0 2 ++ [.multi .results] ++ reps 3 (.multi .owner) ++
    [.req 1 (.call 4 .setPending), .req 1 (.go 4), .req 1 (.call 4 .claim), .req 1 (.go 4)] ++
    [.multi (.cancel 0 false true)] ++ reps 8 (.multi (.canc 0)) ++ reps 4 (.req 1 (.go 1)) ++ [.req 1 (.call 4 (.respond 7 none))] ++
    [.req 1 (.responder 1 [])] ++ reps 6 (.multi (.resp 1)) ++ reps 3 (.req 1 (.go 1))

example : (run (init fun _ => 5) cancelRun).any (fun s => s.m.own = .rWait true ∧ s.m.ret = 2 ∧ s.m.code 0 = some 7 ∧ s.m.code 1 = some rcCanceled ∧
    (s.r 1).pc 4 ≠ .idle ∧ s.m.cp 0 = .fail 0 2 2) = true := by decide +kernel

example : (run (init fun _ => 5) (cancelRun ++ [.multi (.canc 0)] ++ reps 3 (.req 1 (.go 4)) ++ reps 2 (.multi .owner))).any (fun s => s.m.got = some [0, 1] ∧
    s.m.cp 0 = .done true ∧ (s.r 1).pc 4 = .idle ∧ deliveries (s.r 1).d.log = 1) = true := by decide +kernel

/-- A `Request` created after the cancellation answers it itself. -/
def lateRun : List Choice :=
  mk ++ [.multi (.cancel 0 true true), .multi (.request true)] ++ reps 4 (.multi .owner)

example : (run (init fun _ => 5) lateRun).any (fun s => s.m.own = .chkA 1 rcTimeout ∧ (s.r 1).pc 0 = .wait (.fail rcTimeout) ∧ s.m.cp 0 = .readC true) = true := by
  decide +kernel

example : (run (init fun _ => 5) (lateRun ++ reps 4 (.req 1 (.go 0)) ++ [.req 1 (.responder 0 [])] ++ reps 6 (.multi (.resp 1)) ++ reps 3 (.req 1 (.go 0)))).any
    (fun s => s.m.own = .idle ∧ s.m.ret = 2 ∧ s.m.code 1 = some rcTimeout ∧ s.m.code 0 = none) = true := by decide +kernel

example : (run (init fun _ => 5) (mk ++ [.multi .each] ++ reps 2 (.multi .owner))).any (fun s => s.m.own = .eChan) = true := by decide +kernel

end Verif.MultiReq
