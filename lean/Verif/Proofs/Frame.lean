import Verif.Model.System

/-! Frame lemmas: which fields the helper functions of the model leave alone. Generated. -/

namespace DelayTimer

@[simp] theorem push_wheel (s : St) (e : TimerEvent) : (push s e).wheel = s.wheel := rfl
@[simp] theorem push_flags (s : St) (e : TimerEvent) : (push s e).flags = s.flags := rfl
@[simp] theorem push_secondHand (s : St) (e : TimerEvent) : (push s e).secondHand = s.secondHand := rfl
@[simp] theorem push_globalTime (s : St) (e : TimerEvent) : (push s e).globalTime = s.globalTime := rfl
@[simp] theorem push_motivation (s : St) (e : TimerEvent) : (push s e).motivation = s.motivation := rfl
@[simp] theorem push_recs (s : St) (e : TimerEvent) : (push s e).recs = s.recs := rfl
@[simp] theorem push_tpc (s : St) (e : TimerEvent) : (push s e).tpc = s.tpc := rfl
@[simp] theorem push_epc (s : St) (e : TimerEvent) : (push s e).epc = s.epc := rfl
@[simp] theorem push_trace (s : St) (e : TimerEvent) : (push s e).trace = s.trace := rfl
@[simp] theorem push_hdrState (s : St) (e : TimerEvent) : (push s e).hdrState = s.hdrState := rfl
@[simp] theorem push_nextHdr (s : St) (e : TimerEvent) : (push s e).nextHdr = s.nextHdr := rfl
@[simp] theorem push_chainState (s : St) (e : TimerEvent) : (push s e).chainState = s.chainState := rfl
@[simp] theorem push_chainQueue (s : St) (e : TimerEvent) : (push s e).chainQueue = s.chainQueue := rfl
@[simp] theorem push_chainHeld (s : St) (e : TimerEvent) : (push s e).chainHeld = s.chainHeld := rfl
@[simp] theorem push_nextChain (s : St) (e : TimerEvent) : (push s e).nextChain = s.nextChain := rfl
@[simp] theorem push_rt (s : St) (e : TimerEvent) : (push s e).rt = s.rt := rfl
@[simp] theorem push_unitChan (s : St) (e : TimerEvent) : (push s e).unitChan = s.unitChan := rfl
@[simp] theorem push_heap (s : St) (e : TimerEvent) : (push s e).heap = s.heap := rfl
@[simp] theorem push_spc (s : St) (e : TimerEvent) : (push s e).spc = s.spc := rfl
@[simp] theorem push_waiters (s : St) (e : TimerEvent) : (push s e).waiters = s.waiters := rfl
@[simp] theorem push_reports (s : St) (e : TimerEvent) : (push s e).reports = s.reports := rfl
@[simp] theorem push_ticks (s : St) (e : TimerEvent) : (push s e).ticks = s.ticks := rfl

@[simp] theorem done_wheel (env : Env) (s : St) (tag : Tag) (pub : Option PublicEvent) (res : Option Bool) : (done env s tag pub res).wheel = s.wheel := rfl
@[simp] theorem done_flags (env : Env) (s : St) (tag : Tag) (pub : Option PublicEvent) (res : Option Bool) : (done env s tag pub res).flags = s.flags := rfl
@[simp] theorem done_secondHand (env : Env) (s : St) (tag : Tag) (pub : Option PublicEvent) (res : Option Bool) : (done env s tag pub res).secondHand = s.secondHand := rfl
@[simp] theorem done_globalTime (env : Env) (s : St) (tag : Tag) (pub : Option PublicEvent) (res : Option Bool) : (done env s tag pub res).globalTime = s.globalTime := rfl
@[simp] theorem done_motivation (env : Env) (s : St) (tag : Tag) (pub : Option PublicEvent) (res : Option Bool) : (done env s tag pub res).motivation = s.motivation := rfl
@[simp] theorem done_recs (env : Env) (s : St) (tag : Tag) (pub : Option PublicEvent) (res : Option Bool) : (done env s tag pub res).recs = s.recs := rfl
@[simp] theorem done_chan (env : Env) (s : St) (tag : Tag) (pub : Option PublicEvent) (res : Option Bool) : (done env s tag pub res).chan = s.chan := rfl
@[simp] theorem done_tpc (env : Env) (s : St) (tag : Tag) (pub : Option PublicEvent) (res : Option Bool) : (done env s tag pub res).tpc = s.tpc := rfl
@[simp] theorem done_trace (env : Env) (s : St) (tag : Tag) (pub : Option PublicEvent) (res : Option Bool) : (done env s tag pub res).trace = s.trace := rfl
@[simp] theorem done_hdrState (env : Env) (s : St) (tag : Tag) (pub : Option PublicEvent) (res : Option Bool) : (done env s tag pub res).hdrState = s.hdrState := rfl
@[simp] theorem done_nextHdr (env : Env) (s : St) (tag : Tag) (pub : Option PublicEvent) (res : Option Bool) : (done env s tag pub res).nextHdr = s.nextHdr := rfl
@[simp] theorem done_chainState (env : Env) (s : St) (tag : Tag) (pub : Option PublicEvent) (res : Option Bool) : (done env s tag pub res).chainState = s.chainState := rfl
@[simp] theorem done_chainQueue (env : Env) (s : St) (tag : Tag) (pub : Option PublicEvent) (res : Option Bool) : (done env s tag pub res).chainQueue = s.chainQueue := rfl
@[simp] theorem done_chainHeld (env : Env) (s : St) (tag : Tag) (pub : Option PublicEvent) (res : Option Bool) : (done env s tag pub res).chainHeld = s.chainHeld := rfl
@[simp] theorem done_nextChain (env : Env) (s : St) (tag : Tag) (pub : Option PublicEvent) (res : Option Bool) : (done env s tag pub res).nextChain = s.nextChain := rfl
@[simp] theorem done_rt (env : Env) (s : St) (tag : Tag) (pub : Option PublicEvent) (res : Option Bool) : (done env s tag pub res).rt = s.rt := rfl
@[simp] theorem done_unitChan (env : Env) (s : St) (tag : Tag) (pub : Option PublicEvent) (res : Option Bool) : (done env s tag pub res).unitChan = s.unitChan := rfl
@[simp] theorem done_heap (env : Env) (s : St) (tag : Tag) (pub : Option PublicEvent) (res : Option Bool) : (done env s tag pub res).heap = s.heap := rfl
@[simp] theorem done_spc (env : Env) (s : St) (tag : Tag) (pub : Option PublicEvent) (res : Option Bool) : (done env s tag pub res).spc = s.spc := rfl
@[simp] theorem done_waiters (env : Env) (s : St) (tag : Tag) (pub : Option PublicEvent) (res : Option Bool) : (done env s tag pub res).waiters = s.waiters := rfl
@[simp] theorem done_ticks (env : Env) (s : St) (tag : Tag) (pub : Option PublicEvent) (res : Option Bool) : (done env s tag pub res).ticks = s.ticks := rfl

@[simp] theorem dropMaintainer_wheel (s : St) (m : Option Maintainer) : (dropMaintainer s m).wheel = s.wheel := by cases m <;> rfl
@[simp] theorem dropMaintainer_flags (s : St) (m : Option Maintainer) : (dropMaintainer s m).flags = s.flags := by cases m <;> rfl
@[simp] theorem dropMaintainer_secondHand (s : St) (m : Option Maintainer) : (dropMaintainer s m).secondHand = s.secondHand := by cases m <;> rfl
@[simp] theorem dropMaintainer_globalTime (s : St) (m : Option Maintainer) : (dropMaintainer s m).globalTime = s.globalTime := by cases m <;> rfl
@[simp] theorem dropMaintainer_motivation (s : St) (m : Option Maintainer) : (dropMaintainer s m).motivation = s.motivation := by cases m <;> rfl
@[simp] theorem dropMaintainer_recs (s : St) (m : Option Maintainer) : (dropMaintainer s m).recs = s.recs := by cases m <;> rfl
@[simp] theorem dropMaintainer_chan (s : St) (m : Option Maintainer) : (dropMaintainer s m).chan = s.chan := by cases m <;> rfl
@[simp] theorem dropMaintainer_tpc (s : St) (m : Option Maintainer) : (dropMaintainer s m).tpc = s.tpc := by cases m <;> rfl
@[simp] theorem dropMaintainer_epc (s : St) (m : Option Maintainer) : (dropMaintainer s m).epc = s.epc := by cases m <;> rfl
@[simp] theorem dropMaintainer_trace (s : St) (m : Option Maintainer) : (dropMaintainer s m).trace = s.trace := by cases m <;> rfl
@[simp] theorem dropMaintainer_hdrState (s : St) (m : Option Maintainer) : (dropMaintainer s m).hdrState = s.hdrState := by cases m <;> rfl
@[simp] theorem dropMaintainer_nextHdr (s : St) (m : Option Maintainer) : (dropMaintainer s m).nextHdr = s.nextHdr := by cases m <;> rfl
@[simp] theorem dropMaintainer_chainQueue (s : St) (m : Option Maintainer) : (dropMaintainer s m).chainQueue = s.chainQueue := by cases m <;> rfl
@[simp] theorem dropMaintainer_chainHeld (s : St) (m : Option Maintainer) : (dropMaintainer s m).chainHeld = s.chainHeld := by cases m <;> rfl
@[simp] theorem dropMaintainer_nextChain (s : St) (m : Option Maintainer) : (dropMaintainer s m).nextChain = s.nextChain := by cases m <;> rfl
@[simp] theorem dropMaintainer_rt (s : St) (m : Option Maintainer) : (dropMaintainer s m).rt = s.rt := by cases m <;> rfl
@[simp] theorem dropMaintainer_unitChan (s : St) (m : Option Maintainer) : (dropMaintainer s m).unitChan = s.unitChan := by cases m <;> rfl
@[simp] theorem dropMaintainer_heap (s : St) (m : Option Maintainer) : (dropMaintainer s m).heap = s.heap := by cases m <;> rfl
@[simp] theorem dropMaintainer_spc (s : St) (m : Option Maintainer) : (dropMaintainer s m).spc = s.spc := by cases m <;> rfl
@[simp] theorem dropMaintainer_waiters (s : St) (m : Option Maintainer) : (dropMaintainer s m).waiters = s.waiters := by cases m <;> rfl
@[simp] theorem dropMaintainer_reports (s : St) (m : Option Maintainer) : (dropMaintainer s m).reports = s.reports := by cases m <;> rfl
@[simp] theorem dropMaintainer_ticks (s : St) (m : Option Maintainer) : (dropMaintainer s m).ticks = s.ticks := by cases m <;> rfl
@[simp] theorem dropMaintainer_log (s : St) (m : Option Maintainer) : (dropMaintainer s m).log = s.log := by cases m <;> rfl

@[simp] theorem dropMark_wheel (s : St) (m : Option TaskMark) : (dropMark s m).wheel = s.wheel := by unfold dropMark; split <;> simp
@[simp] theorem dropMark_flags (s : St) (m : Option TaskMark) : (dropMark s m).flags = s.flags := by unfold dropMark; split <;> simp
@[simp] theorem dropMark_secondHand (s : St) (m : Option TaskMark) : (dropMark s m).secondHand = s.secondHand := by unfold dropMark; split <;> simp
@[simp] theorem dropMark_globalTime (s : St) (m : Option TaskMark) : (dropMark s m).globalTime = s.globalTime := by unfold dropMark; split <;> simp
@[simp] theorem dropMark_motivation (s : St) (m : Option TaskMark) : (dropMark s m).motivation = s.motivation := by unfold dropMark; split <;> simp
@[simp] theorem dropMark_recs (s : St) (m : Option TaskMark) : (dropMark s m).recs = s.recs := by unfold dropMark; split <;> simp
@[simp] theorem dropMark_chan (s : St) (m : Option TaskMark) : (dropMark s m).chan = s.chan := by unfold dropMark; split <;> simp
@[simp] theorem dropMark_tpc (s : St) (m : Option TaskMark) : (dropMark s m).tpc = s.tpc := by unfold dropMark; split <;> simp
@[simp] theorem dropMark_epc (s : St) (m : Option TaskMark) : (dropMark s m).epc = s.epc := by unfold dropMark; split <;> simp
@[simp] theorem dropMark_trace (s : St) (m : Option TaskMark) : (dropMark s m).trace = s.trace := by unfold dropMark; split <;> simp
@[simp] theorem dropMark_hdrState (s : St) (m : Option TaskMark) : (dropMark s m).hdrState = s.hdrState := by unfold dropMark; split <;> simp
@[simp] theorem dropMark_nextHdr (s : St) (m : Option TaskMark) : (dropMark s m).nextHdr = s.nextHdr := by unfold dropMark; split <;> simp
@[simp] theorem dropMark_chainQueue (s : St) (m : Option TaskMark) : (dropMark s m).chainQueue = s.chainQueue := by unfold dropMark; split <;> simp
@[simp] theorem dropMark_chainHeld (s : St) (m : Option TaskMark) : (dropMark s m).chainHeld = s.chainHeld := by unfold dropMark; split <;> simp
@[simp] theorem dropMark_nextChain (s : St) (m : Option TaskMark) : (dropMark s m).nextChain = s.nextChain := by unfold dropMark; split <;> simp
@[simp] theorem dropMark_rt (s : St) (m : Option TaskMark) : (dropMark s m).rt = s.rt := by unfold dropMark; split <;> simp
@[simp] theorem dropMark_unitChan (s : St) (m : Option TaskMark) : (dropMark s m).unitChan = s.unitChan := by unfold dropMark; split <;> simp
@[simp] theorem dropMark_heap (s : St) (m : Option TaskMark) : (dropMark s m).heap = s.heap := by unfold dropMark; split <;> simp
@[simp] theorem dropMark_spc (s : St) (m : Option TaskMark) : (dropMark s m).spc = s.spc := by unfold dropMark; split <;> simp
@[simp] theorem dropMark_waiters (s : St) (m : Option TaskMark) : (dropMark s m).waiters = s.waiters := by unfold dropMark; split <;> simp
@[simp] theorem dropMark_reports (s : St) (m : Option TaskMark) : (dropMark s m).reports = s.reports := by unfold dropMark; split <;> simp
@[simp] theorem dropMark_ticks (s : St) (m : Option TaskMark) : (dropMark s m).ticks = s.ticks := by unfold dropMark; split <;> simp
@[simp] theorem dropMark_log (s : St) (m : Option TaskMark) : (dropMark s m).log = s.log := by unfold dropMark; split <;> simp

@[simp] theorem notifyInstance_wheel (s : St) (hdr st : Nat) : (notifyInstance s hdr st).wheel = s.wheel := rfl
@[simp] theorem notifyInstance_flags (s : St) (hdr st : Nat) : (notifyInstance s hdr st).flags = s.flags := rfl
@[simp] theorem notifyInstance_secondHand (s : St) (hdr st : Nat) : (notifyInstance s hdr st).secondHand = s.secondHand := rfl
@[simp] theorem notifyInstance_globalTime (s : St) (hdr st : Nat) : (notifyInstance s hdr st).globalTime = s.globalTime := rfl
@[simp] theorem notifyInstance_motivation (s : St) (hdr st : Nat) : (notifyInstance s hdr st).motivation = s.motivation := rfl
@[simp] theorem notifyInstance_recs (s : St) (hdr st : Nat) : (notifyInstance s hdr st).recs = s.recs := rfl
@[simp] theorem notifyInstance_chan (s : St) (hdr st : Nat) : (notifyInstance s hdr st).chan = s.chan := rfl
@[simp] theorem notifyInstance_tpc (s : St) (hdr st : Nat) : (notifyInstance s hdr st).tpc = s.tpc := rfl
@[simp] theorem notifyInstance_epc (s : St) (hdr st : Nat) : (notifyInstance s hdr st).epc = s.epc := rfl
@[simp] theorem notifyInstance_trace (s : St) (hdr st : Nat) : (notifyInstance s hdr st).trace = s.trace := rfl
@[simp] theorem notifyInstance_nextHdr (s : St) (hdr st : Nat) : (notifyInstance s hdr st).nextHdr = s.nextHdr := rfl
@[simp] theorem notifyInstance_chainState (s : St) (hdr st : Nat) : (notifyInstance s hdr st).chainState = s.chainState := rfl
@[simp] theorem notifyInstance_chainQueue (s : St) (hdr st : Nat) : (notifyInstance s hdr st).chainQueue = s.chainQueue := rfl
@[simp] theorem notifyInstance_chainHeld (s : St) (hdr st : Nat) : (notifyInstance s hdr st).chainHeld = s.chainHeld := rfl
@[simp] theorem notifyInstance_nextChain (s : St) (hdr st : Nat) : (notifyInstance s hdr st).nextChain = s.nextChain := rfl
@[simp] theorem notifyInstance_rt (s : St) (hdr st : Nat) : (notifyInstance s hdr st).rt = s.rt := rfl
@[simp] theorem notifyInstance_unitChan (s : St) (hdr st : Nat) : (notifyInstance s hdr st).unitChan = s.unitChan := rfl
@[simp] theorem notifyInstance_heap (s : St) (hdr st : Nat) : (notifyInstance s hdr st).heap = s.heap := rfl
@[simp] theorem notifyInstance_spc (s : St) (hdr st : Nat) : (notifyInstance s hdr st).spc = s.spc := rfl
@[simp] theorem notifyInstance_reports (s : St) (hdr st : Nat) : (notifyInstance s hdr st).reports = s.reports := rfl
@[simp] theorem notifyInstance_ticks (s : St) (hdr st : Nat) : (notifyInstance s hdr st).ticks = s.ticks := rfl

@[simp] theorem notifyMark_wheel (s : St) (id : Nat) (m : TaskMark) (mt : Maintainer) (rec : Int) (st : Nat) : ((notifyMark s id m mt rec st).2).wheel = s.wheel := by unfold notifyMark; (repeat' split) <;> simp
@[simp] theorem notifyMark_secondHand (s : St) (id : Nat) (m : TaskMark) (mt : Maintainer) (rec : Int) (st : Nat) : ((notifyMark s id m mt rec st).2).secondHand = s.secondHand := by unfold notifyMark; (repeat' split) <;> simp
@[simp] theorem notifyMark_globalTime (s : St) (id : Nat) (m : TaskMark) (mt : Maintainer) (rec : Int) (st : Nat) : ((notifyMark s id m mt rec st).2).globalTime = s.globalTime := by unfold notifyMark; (repeat' split) <;> simp
@[simp] theorem notifyMark_motivation (s : St) (id : Nat) (m : TaskMark) (mt : Maintainer) (rec : Int) (st : Nat) : ((notifyMark s id m mt rec st).2).motivation = s.motivation := by unfold notifyMark; (repeat' split) <;> simp
@[simp] theorem notifyMark_recs (s : St) (id : Nat) (m : TaskMark) (mt : Maintainer) (rec : Int) (st : Nat) : ((notifyMark s id m mt rec st).2).recs = s.recs := by unfold notifyMark; (repeat' split) <;> simp
@[simp] theorem notifyMark_chan (s : St) (id : Nat) (m : TaskMark) (mt : Maintainer) (rec : Int) (st : Nat) : ((notifyMark s id m mt rec st).2).chan = s.chan := by unfold notifyMark; (repeat' split) <;> simp
@[simp] theorem notifyMark_tpc (s : St) (id : Nat) (m : TaskMark) (mt : Maintainer) (rec : Int) (st : Nat) : ((notifyMark s id m mt rec st).2).tpc = s.tpc := by unfold notifyMark; (repeat' split) <;> simp
@[simp] theorem notifyMark_epc (s : St) (id : Nat) (m : TaskMark) (mt : Maintainer) (rec : Int) (st : Nat) : ((notifyMark s id m mt rec st).2).epc = s.epc := by unfold notifyMark; (repeat' split) <;> simp
@[simp] theorem notifyMark_trace (s : St) (id : Nat) (m : TaskMark) (mt : Maintainer) (rec : Int) (st : Nat) : ((notifyMark s id m mt rec st).2).trace = s.trace := by unfold notifyMark; (repeat' split) <;> simp
@[simp] theorem notifyMark_nextHdr (s : St) (id : Nat) (m : TaskMark) (mt : Maintainer) (rec : Int) (st : Nat) : ((notifyMark s id m mt rec st).2).nextHdr = s.nextHdr := by unfold notifyMark; (repeat' split) <;> simp
@[simp] theorem notifyMark_chainQueue (s : St) (id : Nat) (m : TaskMark) (mt : Maintainer) (rec : Int) (st : Nat) : ((notifyMark s id m mt rec st).2).chainQueue = s.chainQueue := by unfold notifyMark; (repeat' split) <;> simp
@[simp] theorem notifyMark_chainHeld (s : St) (id : Nat) (m : TaskMark) (mt : Maintainer) (rec : Int) (st : Nat) : ((notifyMark s id m mt rec st).2).chainHeld = s.chainHeld := by unfold notifyMark; (repeat' split) <;> simp
@[simp] theorem notifyMark_nextChain (s : St) (id : Nat) (m : TaskMark) (mt : Maintainer) (rec : Int) (st : Nat) : ((notifyMark s id m mt rec st).2).nextChain = s.nextChain := by unfold notifyMark; (repeat' split) <;> simp
@[simp] theorem notifyMark_rt (s : St) (id : Nat) (m : TaskMark) (mt : Maintainer) (rec : Int) (st : Nat) : ((notifyMark s id m mt rec st).2).rt = s.rt := by unfold notifyMark; (repeat' split) <;> simp
@[simp] theorem notifyMark_unitChan (s : St) (id : Nat) (m : TaskMark) (mt : Maintainer) (rec : Int) (st : Nat) : ((notifyMark s id m mt rec st).2).unitChan = s.unitChan := by unfold notifyMark; (repeat' split) <;> simp
@[simp] theorem notifyMark_heap (s : St) (id : Nat) (m : TaskMark) (mt : Maintainer) (rec : Int) (st : Nat) : ((notifyMark s id m mt rec st).2).heap = s.heap := by unfold notifyMark; (repeat' split) <;> simp
@[simp] theorem notifyMark_spc (s : St) (id : Nat) (m : TaskMark) (mt : Maintainer) (rec : Int) (st : Nat) : ((notifyMark s id m mt rec st).2).spc = s.spc := by unfold notifyMark; (repeat' split) <;> simp
@[simp] theorem notifyMark_reports (s : St) (id : Nat) (m : TaskMark) (mt : Maintainer) (rec : Int) (st : Nat) : ((notifyMark s id m mt rec st).2).reports = s.reports := by unfold notifyMark; (repeat' split) <;> simp
@[simp] theorem notifyMark_ticks (s : St) (id : Nat) (m : TaskMark) (mt : Maintainer) (rec : Int) (st : Nat) : ((notifyMark s id m mt rec st).2).ticks = s.ticks := by unfold notifyMark; (repeat' split) <;> simp

@[simp] theorem cancelTask_wheel (env : Env) (b : Bool) (s : St) (id : Nat) (rec : Int) (st : Nat) : ((cancelTask env b s id rec st).2).wheel = s.wheel := by
  unfold cancelTask
  split
  · rfl
  · dsimp only
    split
    · rfl
    · split
      · rfl
      · split <;> rename_i h <;>
        exact (congrArg (fun x => x.2.wheel) h).symm.trans (notifyMark_wheel ..)
@[simp] theorem cancelTask_secondHand (env : Env) (b : Bool) (s : St) (id : Nat) (rec : Int) (st : Nat) : ((cancelTask env b s id rec st).2).secondHand = s.secondHand := by
  unfold cancelTask
  split
  · rfl
  · dsimp only
    split
    · rfl
    · split
      · rfl
      · split <;> rename_i h <;>
        exact (congrArg (fun x => x.2.secondHand) h).symm.trans (notifyMark_secondHand ..)
@[simp] theorem cancelTask_globalTime (env : Env) (b : Bool) (s : St) (id : Nat) (rec : Int) (st : Nat) : ((cancelTask env b s id rec st).2).globalTime = s.globalTime := by
  unfold cancelTask
  split
  · rfl
  · dsimp only
    split
    · rfl
    · split
      · rfl
      · split <;> rename_i h <;>
        exact (congrArg (fun x => x.2.globalTime) h).symm.trans (notifyMark_globalTime ..)
@[simp] theorem cancelTask_motivation (env : Env) (b : Bool) (s : St) (id : Nat) (rec : Int) (st : Nat) : ((cancelTask env b s id rec st).2).motivation = s.motivation := by
  unfold cancelTask
  split
  · rfl
  · dsimp only
    split
    · rfl
    · split
      · rfl
      · split <;> rename_i h <;>
        exact (congrArg (fun x => x.2.motivation) h).symm.trans (notifyMark_motivation ..)
@[simp] theorem cancelTask_recs (env : Env) (b : Bool) (s : St) (id : Nat) (rec : Int) (st : Nat) : ((cancelTask env b s id rec st).2).recs = s.recs := by
  unfold cancelTask
  split
  · rfl
  · dsimp only
    split
    · rfl
    · split
      · rfl
      · split <;> rename_i h <;>
        exact (congrArg (fun x => x.2.recs) h).symm.trans (notifyMark_recs ..)
@[simp] theorem cancelTask_chan (env : Env) (b : Bool) (s : St) (id : Nat) (rec : Int) (st : Nat) : ((cancelTask env b s id rec st).2).chan = s.chan := by
  unfold cancelTask
  split
  · rfl
  · dsimp only
    split
    · rfl
    · split
      · rfl
      · split <;> rename_i h <;>
        exact (congrArg (fun x => x.2.chan) h).symm.trans (notifyMark_chan ..)
@[simp] theorem cancelTask_tpc (env : Env) (b : Bool) (s : St) (id : Nat) (rec : Int) (st : Nat) : ((cancelTask env b s id rec st).2).tpc = s.tpc := by
  unfold cancelTask
  split
  · rfl
  · dsimp only
    split
    · rfl
    · split
      · rfl
      · split <;> rename_i h <;>
        exact (congrArg (fun x => x.2.tpc) h).symm.trans (notifyMark_tpc ..)
@[simp] theorem cancelTask_epc (env : Env) (b : Bool) (s : St) (id : Nat) (rec : Int) (st : Nat) : ((cancelTask env b s id rec st).2).epc = s.epc := by
  unfold cancelTask
  split
  · rfl
  · dsimp only
    split
    · rfl
    · split
      · rfl
      · split <;> rename_i h <;>
        exact (congrArg (fun x => x.2.epc) h).symm.trans (notifyMark_epc ..)
@[simp] theorem cancelTask_nextHdr (env : Env) (b : Bool) (s : St) (id : Nat) (rec : Int) (st : Nat) : ((cancelTask env b s id rec st).2).nextHdr = s.nextHdr := by
  unfold cancelTask
  split
  · rfl
  · dsimp only
    split
    · rfl
    · split
      · rfl
      · split <;> rename_i h <;>
        exact (congrArg (fun x => x.2.nextHdr) h).symm.trans (notifyMark_nextHdr ..)
@[simp] theorem cancelTask_chainQueue (env : Env) (b : Bool) (s : St) (id : Nat) (rec : Int) (st : Nat) : ((cancelTask env b s id rec st).2).chainQueue = s.chainQueue := by
  unfold cancelTask
  split
  · rfl
  · dsimp only
    split
    · rfl
    · split
      · rfl
      · split <;> rename_i h <;>
        exact (congrArg (fun x => x.2.chainQueue) h).symm.trans (notifyMark_chainQueue ..)
@[simp] theorem cancelTask_chainHeld (env : Env) (b : Bool) (s : St) (id : Nat) (rec : Int) (st : Nat) : ((cancelTask env b s id rec st).2).chainHeld = s.chainHeld := by
  unfold cancelTask
  split
  · rfl
  · dsimp only
    split
    · rfl
    · split
      · rfl
      · split <;> rename_i h <;>
        exact (congrArg (fun x => x.2.chainHeld) h).symm.trans (notifyMark_chainHeld ..)
@[simp] theorem cancelTask_nextChain (env : Env) (b : Bool) (s : St) (id : Nat) (rec : Int) (st : Nat) : ((cancelTask env b s id rec st).2).nextChain = s.nextChain := by
  unfold cancelTask
  split
  · rfl
  · dsimp only
    split
    · rfl
    · split
      · rfl
      · split <;> rename_i h <;>
        exact (congrArg (fun x => x.2.nextChain) h).symm.trans (notifyMark_nextChain ..)
@[simp] theorem cancelTask_rt (env : Env) (b : Bool) (s : St) (id : Nat) (rec : Int) (st : Nat) : ((cancelTask env b s id rec st).2).rt = s.rt := by
  unfold cancelTask
  split
  · rfl
  · dsimp only
    split
    · rfl
    · split
      · rfl
      · split <;> rename_i h <;>
        exact (congrArg (fun x => x.2.rt) h).symm.trans (notifyMark_rt ..)
@[simp] theorem cancelTask_unitChan (env : Env) (b : Bool) (s : St) (id : Nat) (rec : Int) (st : Nat) : ((cancelTask env b s id rec st).2).unitChan = s.unitChan := by
  unfold cancelTask
  split
  · rfl
  · dsimp only
    split
    · rfl
    · split
      · rfl
      · split <;> rename_i h <;>
        exact (congrArg (fun x => x.2.unitChan) h).symm.trans (notifyMark_unitChan ..)
@[simp] theorem cancelTask_heap (env : Env) (b : Bool) (s : St) (id : Nat) (rec : Int) (st : Nat) : ((cancelTask env b s id rec st).2).heap = s.heap := by
  unfold cancelTask
  split
  · rfl
  · dsimp only
    split
    · rfl
    · split
      · rfl
      · split <;> rename_i h <;>
        exact (congrArg (fun x => x.2.heap) h).symm.trans (notifyMark_heap ..)
@[simp] theorem cancelTask_spc (env : Env) (b : Bool) (s : St) (id : Nat) (rec : Int) (st : Nat) : ((cancelTask env b s id rec st).2).spc = s.spc := by
  unfold cancelTask
  split
  · rfl
  · dsimp only
    split
    · rfl
    · split
      · rfl
      · split <;> rename_i h <;>
        exact (congrArg (fun x => x.2.spc) h).symm.trans (notifyMark_spc ..)
@[simp] theorem cancelTask_reports (env : Env) (b : Bool) (s : St) (id : Nat) (rec : Int) (st : Nat) : ((cancelTask env b s id rec st).2).reports = s.reports := by
  unfold cancelTask
  split
  · rfl
  · dsimp only
    split
    · rfl
    · split
      · rfl
      · split <;> rename_i h <;>
        exact (congrArg (fun x => x.2.reports) h).symm.trans (notifyMark_reports ..)
@[simp] theorem cancelTask_ticks (env : Env) (b : Bool) (s : St) (id : Nat) (rec : Int) (st : Nat) : ((cancelTask env b s id rec st).2).ticks = s.ticks := by
  unfold cancelTask
  split
  · rfl
  · dsimp only
    split
    · rfl
    · split
      · rfl
      · split <;> rename_i h <;>
        exact (congrArg (fun x => x.2.ticks) h).symm.trans (notifyMark_ticks ..)

@[simp] theorem finishTask_wheel (env : Env) (s : St) (id : Nat) (rec : Int) : ((finishTask env s id rec).2).wheel = s.wheel := by
  unfold finishTask
  split
  · rfl
  · dsimp only
    split
    · rfl
    · split
      · rfl
      · split <;> rename_i h <;>
        exact (congrArg (fun x => x.2.wheel) h).symm.trans (notifyMark_wheel ..)
@[simp] theorem finishTask_secondHand (env : Env) (s : St) (id : Nat) (rec : Int) : ((finishTask env s id rec).2).secondHand = s.secondHand := by
  unfold finishTask
  split
  · rfl
  · dsimp only
    split
    · rfl
    · split
      · rfl
      · split <;> rename_i h <;>
        exact (congrArg (fun x => x.2.secondHand) h).symm.trans (notifyMark_secondHand ..)
@[simp] theorem finishTask_globalTime (env : Env) (s : St) (id : Nat) (rec : Int) : ((finishTask env s id rec).2).globalTime = s.globalTime := by
  unfold finishTask
  split
  · rfl
  · dsimp only
    split
    · rfl
    · split
      · rfl
      · split <;> rename_i h <;>
        exact (congrArg (fun x => x.2.globalTime) h).symm.trans (notifyMark_globalTime ..)
@[simp] theorem finishTask_motivation (env : Env) (s : St) (id : Nat) (rec : Int) : ((finishTask env s id rec).2).motivation = s.motivation := by
  unfold finishTask
  split
  · rfl
  · dsimp only
    split
    · rfl
    · split
      · rfl
      · split <;> rename_i h <;>
        exact (congrArg (fun x => x.2.motivation) h).symm.trans (notifyMark_motivation ..)
@[simp] theorem finishTask_recs (env : Env) (s : St) (id : Nat) (rec : Int) : ((finishTask env s id rec).2).recs = s.recs := by
  unfold finishTask
  split
  · rfl
  · dsimp only
    split
    · rfl
    · split
      · rfl
      · split <;> rename_i h <;>
        exact (congrArg (fun x => x.2.recs) h).symm.trans (notifyMark_recs ..)
@[simp] theorem finishTask_chan (env : Env) (s : St) (id : Nat) (rec : Int) : ((finishTask env s id rec).2).chan = s.chan := by
  unfold finishTask
  split
  · rfl
  · dsimp only
    split
    · rfl
    · split
      · rfl
      · split <;> rename_i h <;>
        exact (congrArg (fun x => x.2.chan) h).symm.trans (notifyMark_chan ..)
@[simp] theorem finishTask_tpc (env : Env) (s : St) (id : Nat) (rec : Int) : ((finishTask env s id rec).2).tpc = s.tpc := by
  unfold finishTask
  split
  · rfl
  · dsimp only
    split
    · rfl
    · split
      · rfl
      · split <;> rename_i h <;>
        exact (congrArg (fun x => x.2.tpc) h).symm.trans (notifyMark_tpc ..)
@[simp] theorem finishTask_epc (env : Env) (s : St) (id : Nat) (rec : Int) : ((finishTask env s id rec).2).epc = s.epc := by
  unfold finishTask
  split
  · rfl
  · dsimp only
    split
    · rfl
    · split
      · rfl
      · split <;> rename_i h <;>
        exact (congrArg (fun x => x.2.epc) h).symm.trans (notifyMark_epc ..)
@[simp] theorem finishTask_nextHdr (env : Env) (s : St) (id : Nat) (rec : Int) : ((finishTask env s id rec).2).nextHdr = s.nextHdr := by
  unfold finishTask
  split
  · rfl
  · dsimp only
    split
    · rfl
    · split
      · rfl
      · split <;> rename_i h <;>
        exact (congrArg (fun x => x.2.nextHdr) h).symm.trans (notifyMark_nextHdr ..)
@[simp] theorem finishTask_chainQueue (env : Env) (s : St) (id : Nat) (rec : Int) : ((finishTask env s id rec).2).chainQueue = s.chainQueue := by
  unfold finishTask
  split
  · rfl
  · dsimp only
    split
    · rfl
    · split
      · rfl
      · split <;> rename_i h <;>
        exact (congrArg (fun x => x.2.chainQueue) h).symm.trans (notifyMark_chainQueue ..)
@[simp] theorem finishTask_chainHeld (env : Env) (s : St) (id : Nat) (rec : Int) : ((finishTask env s id rec).2).chainHeld = s.chainHeld := by
  unfold finishTask
  split
  · rfl
  · dsimp only
    split
    · rfl
    · split
      · rfl
      · split <;> rename_i h <;>
        exact (congrArg (fun x => x.2.chainHeld) h).symm.trans (notifyMark_chainHeld ..)
@[simp] theorem finishTask_nextChain (env : Env) (s : St) (id : Nat) (rec : Int) : ((finishTask env s id rec).2).nextChain = s.nextChain := by
  unfold finishTask
  split
  · rfl
  · dsimp only
    split
    · rfl
    · split
      · rfl
      · split <;> rename_i h <;>
        exact (congrArg (fun x => x.2.nextChain) h).symm.trans (notifyMark_nextChain ..)
@[simp] theorem finishTask_rt (env : Env) (s : St) (id : Nat) (rec : Int) : ((finishTask env s id rec).2).rt = s.rt := by
  unfold finishTask
  split
  · rfl
  · dsimp only
    split
    · rfl
    · split
      · rfl
      · split <;> rename_i h <;>
        exact (congrArg (fun x => x.2.rt) h).symm.trans (notifyMark_rt ..)
@[simp] theorem finishTask_unitChan (env : Env) (s : St) (id : Nat) (rec : Int) : ((finishTask env s id rec).2).unitChan = s.unitChan := by
  unfold finishTask
  split
  · rfl
  · dsimp only
    split
    · rfl
    · split
      · rfl
      · split <;> rename_i h <;>
        exact (congrArg (fun x => x.2.unitChan) h).symm.trans (notifyMark_unitChan ..)
@[simp] theorem finishTask_heap (env : Env) (s : St) (id : Nat) (rec : Int) : ((finishTask env s id rec).2).heap = s.heap := by
  unfold finishTask
  split
  · rfl
  · dsimp only
    split
    · rfl
    · split
      · rfl
      · split <;> rename_i h <;>
        exact (congrArg (fun x => x.2.heap) h).symm.trans (notifyMark_heap ..)
@[simp] theorem finishTask_spc (env : Env) (s : St) (id : Nat) (rec : Int) : ((finishTask env s id rec).2).spc = s.spc := by
  unfold finishTask
  split
  · rfl
  · dsimp only
    split
    · rfl
    · split
      · rfl
      · split <;> rename_i h <;>
        exact (congrArg (fun x => x.2.spc) h).symm.trans (notifyMark_spc ..)
@[simp] theorem finishTask_reports (env : Env) (s : St) (id : Nat) (rec : Int) : ((finishTask env s id rec).2).reports = s.reports := by
  unfold finishTask
  split
  · rfl
  · dsimp only
    split
    · rfl
    · split
      · rfl
      · split <;> rename_i h <;>
        exact (congrArg (fun x => x.2.reports) h).symm.trans (notifyMark_reports ..)
@[simp] theorem finishTask_ticks (env : Env) (s : St) (id : Nat) (rec : Int) : ((finishTask env s id rec).2).ticks = s.ticks := by
  unfold finishTask
  split
  · rfl
  · dsimp only
    split
    · rfl
    · split
      · rfl
      · split <;> rename_i h <;>
        exact (congrArg (fun x => x.2.ticks) h).symm.trans (notifyMark_ticks ..)

@[simp] theorem registerInstance_wheel (s : St) (id : Nat) (rec : Int) : (registerInstance s id rec).wheel = s.wheel := by unfold registerInstance; (repeat' split) <;> simp
@[simp] theorem registerInstance_secondHand (s : St) (id : Nat) (rec : Int) : (registerInstance s id rec).secondHand = s.secondHand := by unfold registerInstance; (repeat' split) <;> simp
@[simp] theorem registerInstance_globalTime (s : St) (id : Nat) (rec : Int) : (registerInstance s id rec).globalTime = s.globalTime := by unfold registerInstance; (repeat' split) <;> simp
@[simp] theorem registerInstance_motivation (s : St) (id : Nat) (rec : Int) : (registerInstance s id rec).motivation = s.motivation := by unfold registerInstance; (repeat' split) <;> simp
@[simp] theorem registerInstance_recs (s : St) (id : Nat) (rec : Int) : (registerInstance s id rec).recs = s.recs := by unfold registerInstance; (repeat' split) <;> simp
@[simp] theorem registerInstance_chan (s : St) (id : Nat) (rec : Int) : (registerInstance s id rec).chan = s.chan := by unfold registerInstance; (repeat' split) <;> simp
@[simp] theorem registerInstance_tpc (s : St) (id : Nat) (rec : Int) : (registerInstance s id rec).tpc = s.tpc := by unfold registerInstance; (repeat' split) <;> simp
@[simp] theorem registerInstance_epc (s : St) (id : Nat) (rec : Int) : (registerInstance s id rec).epc = s.epc := by unfold registerInstance; (repeat' split) <;> simp
@[simp] theorem registerInstance_trace (s : St) (id : Nat) (rec : Int) : (registerInstance s id rec).trace = s.trace := by unfold registerInstance; (repeat' split) <;> simp
@[simp] theorem registerInstance_chainHeld (s : St) (id : Nat) (rec : Int) : (registerInstance s id rec).chainHeld = s.chainHeld := by unfold registerInstance; (repeat' split) <;> simp
@[simp] theorem registerInstance_nextChain (s : St) (id : Nat) (rec : Int) : (registerInstance s id rec).nextChain = s.nextChain := by unfold registerInstance; (repeat' split) <;> simp
@[simp] theorem registerInstance_rt (s : St) (id : Nat) (rec : Int) : (registerInstance s id rec).rt = s.rt := by unfold registerInstance; (repeat' split) <;> simp
@[simp] theorem registerInstance_unitChan (s : St) (id : Nat) (rec : Int) : (registerInstance s id rec).unitChan = s.unitChan := by unfold registerInstance; (repeat' split) <;> simp
@[simp] theorem registerInstance_heap (s : St) (id : Nat) (rec : Int) : (registerInstance s id rec).heap = s.heap := by unfold registerInstance; (repeat' split) <;> simp
@[simp] theorem registerInstance_spc (s : St) (id : Nat) (rec : Int) : (registerInstance s id rec).spc = s.spc := by unfold registerInstance; (repeat' split) <;> simp
@[simp] theorem registerInstance_waiters (s : St) (id : Nat) (rec : Int) : (registerInstance s id rec).waiters = s.waiters := by unfold registerInstance; (repeat' split) <;> simp
@[simp] theorem registerInstance_reports (s : St) (id : Nat) (rec : Int) : (registerInstance s id rec).reports = s.reports := by unfold registerInstance; (repeat' split) <;> simp
@[simp] theorem registerInstance_ticks (s : St) (id : Nat) (rec : Int) : (registerInstance s id rec).ticks = s.ticks := by unfold registerInstance; (repeat' split) <;> simp
@[simp] theorem registerInstance_log (s : St) (id : Nat) (rec : Int) : (registerInstance s id rec).log = s.log := by unfold registerInstance; (repeat' split) <;> simp

@[simp] theorem maintainTaskStatus_wheel (s : St) (id : Nat) (box : HandlerBox) : (maintainTaskStatus s id box).wheel = s.wheel := by simp [maintainTaskStatus]
@[simp] theorem maintainTaskStatus_secondHand (s : St) (id : Nat) (box : HandlerBox) : (maintainTaskStatus s id box).secondHand = s.secondHand := by simp [maintainTaskStatus]
@[simp] theorem maintainTaskStatus_globalTime (s : St) (id : Nat) (box : HandlerBox) : (maintainTaskStatus s id box).globalTime = s.globalTime := by simp [maintainTaskStatus]
@[simp] theorem maintainTaskStatus_motivation (s : St) (id : Nat) (box : HandlerBox) : (maintainTaskStatus s id box).motivation = s.motivation := by simp [maintainTaskStatus]
@[simp] theorem maintainTaskStatus_recs (s : St) (id : Nat) (box : HandlerBox) : (maintainTaskStatus s id box).recs = s.recs := by simp [maintainTaskStatus]
@[simp] theorem maintainTaskStatus_chan (s : St) (id : Nat) (box : HandlerBox) : (maintainTaskStatus s id box).chan = s.chan := by simp [maintainTaskStatus]
@[simp] theorem maintainTaskStatus_tpc (s : St) (id : Nat) (box : HandlerBox) : (maintainTaskStatus s id box).tpc = s.tpc := by simp [maintainTaskStatus]
@[simp] theorem maintainTaskStatus_epc (s : St) (id : Nat) (box : HandlerBox) : (maintainTaskStatus s id box).epc = s.epc := by simp [maintainTaskStatus]
@[simp] theorem maintainTaskStatus_chainHeld (s : St) (id : Nat) (box : HandlerBox) : (maintainTaskStatus s id box).chainHeld = s.chainHeld := by simp [maintainTaskStatus]
@[simp] theorem maintainTaskStatus_nextChain (s : St) (id : Nat) (box : HandlerBox) : (maintainTaskStatus s id box).nextChain = s.nextChain := by simp [maintainTaskStatus]
@[simp] theorem maintainTaskStatus_rt (s : St) (id : Nat) (box : HandlerBox) : (maintainTaskStatus s id box).rt = s.rt := by simp [maintainTaskStatus]
@[simp] theorem maintainTaskStatus_heap (s : St) (id : Nat) (box : HandlerBox) : (maintainTaskStatus s id box).heap = s.heap := by simp [maintainTaskStatus]
@[simp] theorem maintainTaskStatus_spc (s : St) (id : Nat) (box : HandlerBox) : (maintainTaskStatus s id box).spc = s.spc := by simp [maintainTaskStatus]
@[simp] theorem maintainTaskStatus_waiters (s : St) (id : Nat) (box : HandlerBox) : (maintainTaskStatus s id box).waiters = s.waiters := by simp [maintainTaskStatus]
@[simp] theorem maintainTaskStatus_reports (s : St) (id : Nat) (box : HandlerBox) : (maintainTaskStatus s id box).reports = s.reports := by simp [maintainTaskStatus]
@[simp] theorem maintainTaskStatus_ticks (s : St) (id : Nat) (box : HandlerBox) : (maintainTaskStatus s id box).ticks = s.ticks := by simp [maintainTaskStatus]
@[simp] theorem maintainTaskStatus_log (s : St) (id : Nat) (box : HandlerBox) : (maintainTaskStatus s id box).log = s.log := by simp [maintainTaskStatus]

@[simp] theorem uInsert_wheel (s : St) (t : Task) : (uInsert s t).wheel = s.wheel := rfl
@[simp] theorem uInsert_flags (s : St) (t : Task) : (uInsert s t).flags = s.flags := rfl
@[simp] theorem uInsert_secondHand (s : St) (t : Task) : (uInsert s t).secondHand = s.secondHand := rfl
@[simp] theorem uInsert_globalTime (s : St) (t : Task) : (uInsert s t).globalTime = s.globalTime := rfl
@[simp] theorem uInsert_motivation (s : St) (t : Task) : (uInsert s t).motivation = s.motivation := rfl
@[simp] theorem uInsert_recs (s : St) (t : Task) : (uInsert s t).recs = s.recs := rfl
@[simp] theorem uInsert_tpc (s : St) (t : Task) : (uInsert s t).tpc = s.tpc := rfl
@[simp] theorem uInsert_epc (s : St) (t : Task) : (uInsert s t).epc = s.epc := rfl
@[simp] theorem uInsert_trace (s : St) (t : Task) : (uInsert s t).trace = s.trace := rfl
@[simp] theorem uInsert_hdrState (s : St) (t : Task) : (uInsert s t).hdrState = s.hdrState := rfl
@[simp] theorem uInsert_nextHdr (s : St) (t : Task) : (uInsert s t).nextHdr = s.nextHdr := rfl
@[simp] theorem uInsert_rt (s : St) (t : Task) : (uInsert s t).rt = s.rt := rfl
@[simp] theorem uInsert_unitChan (s : St) (t : Task) : (uInsert s t).unitChan = s.unitChan := rfl
@[simp] theorem uInsert_heap (s : St) (t : Task) : (uInsert s t).heap = s.heap := rfl
@[simp] theorem uInsert_spc (s : St) (t : Task) : (uInsert s t).spc = s.spc := rfl
@[simp] theorem uInsert_waiters (s : St) (t : Task) : (uInsert s t).waiters = s.waiters := rfl
@[simp] theorem uInsert_reports (s : St) (t : Task) : (uInsert s t).reports = s.reports := rfl
@[simp] theorem uInsert_ticks (s : St) (t : Task) : (uInsert s t).ticks = s.ticks := rfl

end DelayTimer
