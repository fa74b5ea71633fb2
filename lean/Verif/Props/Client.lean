import Verif.Lemmas.Message
import Verif.Lemmas.XmlSettings
import Verif.Props.Message
import Verif.Props.Command
import Verif.Spec.Client

/-!
# C86: the client program
-/

namespace PF
open Spec

theorem trim_noNul {t : BText} (h : NoNul t) : NoNul (trim t) := by
  obtain ⟨pre, post, he, _⟩ := trim_spec t
  intro h0
  exact h (by rw [he]; simp [h0])

theorem trim_length (t : BText) : (trim t).length ≤ t.length := by
  obtain ⟨pre, post, h, _⟩ := trim_spec t
  have := congrArg List.length h
  simp only [List.length_append] at this
  omega

theorem trim_trim (t : BText) : trim (trim t) = trim t := by
  obtain ⟨pre, post, _, _, _, h⟩ := trim_spec t
  exact trim_trimmed h

theorem textsSize_trim (l : List BText) : textsSize (l.map trim) ≤ textsSize l := by
  induction l with
  | nil => simp
  | cons a l ih => have := trim_length a; simp only [List.map_cons, textsSize]; omega

/-- What the system receives of a command and its arguments. -/
theorem call_received {cmd : BText} {args : List BText} (hn : ∀ t ∈ cmd :: args, NoNul t)
    (hs : textsSize (cmd :: args) + 1 < 2 ^ 32) :
    ∃ bytes, (args.foldl Request.addArgument (Request.new cmd)).send = .ok bytes ∧ bytes ≠ [] ∧
      receiveRequest bytes = .success ⟨trim cmd, args.map trim⟩ [] := by
  rw [C45_built]
  have hsz : textsSize (cmd :: args.map trim) + 1 < 2 ^ 32 := by
    have := textsSize_trim args
    simp only [textsSize] at hs ⊢
    omega
  obtain ⟨data, hw, ht, hl⟩ := writeStrings_texts (ts := cmd :: args.map trim)
    (fun t ht => by have := textsSize_mem ht; omega)
  have hne : data ≠ [] := by
    rintro rfl
    simp [textsSize] at hl
    omega
  refine ⟨sendBytes 0#8 data, by simp [Request.send, hw, Out.bind], by simp [sendBytes], ?_⟩
  unfold receiveRequest
  have := receiveFrame_frame 0#8 data [] hne (by omega)
  rw [List.append_nil] at this
  rw [sendBytes_eq, this]
  simp only [Recv.collect, collectRequest_texts ht]
  congr 2
  · rw [cText_noNul (hn cmd (by simp))]
  · rw [List.map_map]
    apply List.map_congr_left
    intro a ha
    simp only [Function.comp_apply]
    rw [cText_noNul (trim_noNul (hn a (by simp [ha]))), trim_trim]

theorem remote_local (u : Unmodelled) (e : MEnv) (h : Host) (cmd : BText) (args : List BText) :
    remoteCommand u e h ⟨trim cmd, args.map trim⟩ =
      ((runCommand u e h (bytesStr (trim cmd)) (args.map bytesStr)).1.map fun a => ⟨a.1, strBytes a.2⟩,
       (runCommand u e h (bytesStr (trim cmd)) (args.map bytesStr)).2) := by
  unfold remoteCommand runCommand
  simp only [List.map_map]
  have : args.map (bytesStr ∘ trim) = args.map ((fun a => bytesStr (trim (strBytes a))) ∘ bytesStr) := by
    apply List.map_congr_left
    intro a _
    simp [strBytes_bytesStr]
  rw [this]

attribute [local irreducible] runCommand remoteCommand

theorem serve_stops {σ : Type} {handle : σ → Request → Option Answer × σ} {x : σ} {bytes : List Byte}
    {r : Request} (hr : receiveRequest bytes = .success r []) (ha : (handle x r).1 = none) :
    serve handle (bytes.length + 1) x bytes = ((handle x r).2, [], .abort) := by
  simp only [serve, hr, ha, Option.map]

theorem serve_answers {σ : Type} {handle : σ → Request → Option Answer × σ} {x : σ} {bytes : List Byte} (hne : bytes ≠ [])
    {r : Request} (hr : receiveRequest bytes = .success r []) {a : Answer} (ha : (handle x r).1 = some a) (hc : CarriedAnswer a) :
    ∃ out, serve handle (bytes.length + 1) x bytes = ((handle x r).2, out, .closed) ∧ receiveAnswer out = .success a [] := by
  obtain ⟨out, hs1, hr1⟩ := C45_answer_round_trip a hc
  have h0 := hr1 []
  rw [List.append_nil] at h0
  have hnil : receiveRequest [] = .peerDisconnected := rfl
  have hfuel : bytes.length + 1 = (bytes.length - 1 + 1) + 1 := by
    have : bytes.length ≠ 0 := fun h => hne (List.length_eq_zero_iff.1 h)
    omega
  refine ⟨out, ?_, h0⟩
  rw [hfuel]
  simp only [serve, hr, ha, Option.map, hs1, hnil, List.append_nil]

/-- **C86 (one command).**  The client shows what the command answers when it is given, with the same arguments, to the command
handler of the system itself, and has the same effect on the system: the answer is printed and the status is 0 if the
command succeeds, the answer is the error and the status is 1 if it fails. -/
theorem C86_client (u : Unmodelled) (e : MEnv) {reaches : BText → BText → Bool} (h : Host) {prog host port cmd : BText}
    {args : List BText} (hreach : reaches host port = true) (hg : GoodCall prog host port cmd args)
    (hfits : AnswerFits (runCommand u e h (bytesStr (trim cmd)) (args.map bytesStr)).1) :
    clientRun u e reaches (some h) (prog :: host :: port :: cmd :: args) =
      (shown (runCommand u e h (bytesStr (trim cmd)) (args.map bytesStr)).1,
       (runCommand u e h (bytesStr (trim cmd)) (args.map bytesStr)).1.map
         fun _ => (runCommand u e h (bytesStr (trim cmd)) (args.map bytesStr)).2) := by
  obtain ⟨bytes, hsend, hne, hrecv⟩ := call_received hg.noNul hg.size
  have hrem := remote_local u e h cmd args
  generalize runCommand u e h (bytesStr (trim cmd)) (args.map bytesStr) = res at hrem hfits ⊢
  obtain ⟨ans, h'⟩ := res
  simp only [clientRun, hreach, hsend, Bool.not_true, Bool.false_eq_true, if_false]
  generalize remoteCommand u e = handle at hrem ⊢
  cases ans with
  | none =>
    rw [serve_stops hrecv (by rw [hrem]; rfl)]
    rfl
  | some a =>
    obtain ⟨b, t⟩ := a
    obtain ⟨out, hs1, hr1⟩ := serve_answers (handle := handle) (x := h) hne hrecv (a := ⟨b, strBytes t⟩) (by rw [hrem]; rfl) ⟨hfits.1, by
      have := hfits.2
      simp only [strBytes, List.length_map]
      omega⟩
    rw [hs1, hr1, hrem]
    simp only [Option.map, shown]
    cases b
    · simp
    · simp

/-- **C86 (status).**  The exit status tells whether the command succeeded. -/
theorem C86_status (r : Option (Bool × Str)) : (shown r).status = some 0 ↔ ∃ t, r = some (true, t) := by
  rcases r with _ | ⟨_ | _, t⟩ <;> simp [shown, ClientEnd.status]

theorem clientRuns_dead {u : Unmodelled} {e : MEnv} {reaches : BText → BText → Bool} {prog host port : BText}
    (cs : List (BText × List BText)) : clientRuns u e reaches none (cs.map fun c => prog :: host :: port :: c.1 :: c.2) =
      (List.replicate cs.length .notConnected, none) := by
  induction cs with
  | nil => rfl
  | cons c cs ih => simp [clientRuns, clientRun, ih, List.replicate_succ]

theorem script_generic {u : Unmodelled} {e : MEnv} {reaches : BText → BText → Bool} {prog host port : BText}
    {run : Host → BText × List BText → Option (Bool × Str) × Host} {cs : List (BText × List BText)}
    (hone : ∀ h, ∀ c ∈ cs, AnswerFits (run h c).1 → clientRun u e reaches (some h) (prog :: host :: port :: c.1 :: c.2) =
      (shown (run h c).1, (run h c).1.map fun _ => (run h c).2)) (h : Host) (hfits : ∀ r ∈ (inTurn run h cs).1, AnswerFits r) :
    clientRuns u e reaches (some h) (cs.map fun c => prog :: host :: port :: c.1 :: c.2) =
      ((inTurn run h cs).1.map shown ++ List.replicate (cs.length - (inTurn run h cs).1.length) .notConnected,
        (inTurn run h cs).2) := by
  induction cs generalizing h with
  | nil => rfl
  | cons c cs ih =>
    have h1 := hone h c (by simp)
    simp only [inTurn] at hfits ⊢
    cases hr : (run h c).1 with
    | none =>
      rw [hr] at h1
      simp only [List.map_cons, clientRuns, h1 trivial, Option.map, clientRuns_dead]
      simp
    | some a =>
      rw [hr] at h1
      rw [hr] at hfits
      simp only [List.map_cons, clientRuns, h1 (hfits _ (by simp)), Option.map]
      rw [ih (fun h c hc => hone h c (by simp [hc])) (run h c).2 (fun r hr => hfits r (by simp [hr]))]
      simp

/-- **C86 (script).**  A script of calls of the client does what the commands do when they are given one after the other to the
system itself, and shows their answers in that order; after a command that stops the system, nobody answers. -/
theorem C86_script (u : Unmodelled) (e : MEnv) {reaches : BText → BText → Bool} {prog host port : BText}
    (hreach : reaches host port = true) (cs : List (BText × List BText))
    (hg : ∀ c ∈ cs, GoodCall prog host port c.1 c.2) (h : Host) (hfits : ∀ r ∈ (runCommands u e h cs).1, AnswerFits r) :
    clientRuns u e reaches (some h) (cs.map fun c => prog :: host :: port :: c.1 :: c.2) =
      ((runCommands u e h cs).1.map shown ++
        List.replicate (cs.length - (runCommands u e h cs).1.length) .notConnected, (runCommands u e h cs).2) := by
  unfold runCommands at hfits ⊢
  have hone := fun h c hc => C86_client u e (reaches := reaches) h (cmd := c.1) (args := c.2) hreach (hg c hc)
  exact script_generic hone h hfits

/-- A script that asks for the volume, with a space behind the path, gives an unknown path, and leaves the tuning mode. -/
example :
    let u : Unmodelled := ⟨fun _ _ _ => [], fun _ _ _ => .succeeded, fun _ => none, fun x => x.tag, fun _ => true⟩
    let call (c : Str) (args : List Str) := [s "remote-process", s "localhost", s "5000", c] ++ args
    let r := clientRuns u Sample.menv (fun _ _ => true) (some ⟨Sample.mgr, fun _ => none⟩)
      ([call (s "getParameter") [s "/Sys/sub/comp/vol "], call (s "setAutoSync") [s "of"], call (s "setTuningMode") [s "off"],
        call (s "getTuningMode") [], call (s "getTuningMode ") []].map (·.map strBytes))
    r.1.map ClientEnd.status = [some 0, some 1, some 0, some 0, some 0] ∧
    r.1[0]? = some (.printed (strBytes (s "0"))) ∧ r.1[3]? = some (.printed (strBytes (s "off"))) ∧
    r.1[4]? = some (.printed (strBytes (s "off"))) ∧ r.2.isSome = true := by
  decide +kernel

end PF
