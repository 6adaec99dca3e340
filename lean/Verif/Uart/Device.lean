import Verif.Basic
/-!
# Model of `esp32-esp-idf/SimpleUartDevice.cpp`

The vendor driver is arbitrary: its answers depend on the calls made before.  `uart_is_driver_installed` tells whether
a driver installation for the port has succeeded; nothing uninstalls a driver.  `ESP_ERROR_CHECK` aborts the program
on any error.  A write hands over the memory it is given, a read stores the bytes it reports and nothing else.
-/
namespace Verif.Uart.Device
open Verif

/-- SimpleUartDevice.h:12-17; the codes are those of the vendor (SimpleUartDevice.cpp:7-10). -/
inductive DataBits where
  | bits5 | bits6 | bits7 | bits8
deriving DecidableEq, Repr

def DataBits.code : DataBits → BitVec 8
  | .bits5 => 0 | .bits6 => 1 | .bits7 => 2 | .bits8 => 3

/-- SimpleUartDevice.h:19-23. -/
inductive StopBits where
  | bits1 | bits1_5 | bits2
deriving DecidableEq, Repr

def StopBits.code : StopBits → BitVec 8
  | .bits1 => 1 | .bits1_5 => 2 | .bits2 => 3

/-- SimpleUartDevice.h:25-29. -/
inductive ParityCheck where
  | none | even | odd
deriving DecidableEq, Repr

def ParityCheck.code : ParityCheck → BitVec 8
  | .none => 0 | .even => 2 | .odd => 3

/-- SimpleUartDevice.h:31-36. -/
inductive FlowControl where
  | disable | rts | cts | rtsCts
deriving DecidableEq, Repr

def FlowControl.code : FlowControl → BitVec 8
  | .disable => 0 | .rts => 1 | .cts => 2 | .rtsCts => 3

/-- The parameters of `init` after the port number (SimpleUartDevice.h:39-41, with its default arguments). -/
structure Request where
  rxPin : Int
  txPin : Int
  baudRate : Int
  dataBits : DataBits := .bits8
  parityCheck : ParityCheck := .none
  stopBits : StopBits := .bits1
  flowCtrl : FlowControl := .disable
deriving DecidableEq, Repr

/-- `uart_config_t` (SimpleUartDevice.cpp:39-50); the source clock and the flags are constant. -/
structure UartConfig where
  baudRate : Int
  dataBits : BitVec 8
  parity : BitVec 8
  stopBits : BitVec 8
  flowCtrl : BitVec 8
  rxFlowCtrlThresh : BitVec 8
deriving DecidableEq, Repr

/-- Calls of the vendor driver. -/
inductive Ev where
  | paramConfig (port : Int) (c : UartConfig)
  | setPin (port tx rx : Int)
  | install (port : Int) (rxBuffer : Nat)
  | write (port : Int) (data : List Byte)
  | waitTxDone (port : Int)
  | read (port : Int) (size ticks : Nat)
deriving DecidableEq, Repr

/-- The answers of the driver. -/
structure Driver where
  /-- success of `uart_param_config`, `uart_set_pin`, `uart_driver_install` -/
  ok : List Ev → Bool
  /-- result of `uart_write_bytes` -/
  written : List Ev → Int
  /-- result of `uart_read_bytes`: an error, or bytes -/
  received : List Ev → Option (List Byte)
  /-- `UART_HW_FIFO_LEN` -/
  fifoLen : Int → Nat

/-- The calls so far and the ports with an installed driver. -/
structure St where
  calls : List Ev
  installed : Int → Bool

/-- SimpleUartDevice.cpp:39-50. -/
def config (r : Request) : UartConfig :=
  { baudRate := r.baudRate
    dataBits := r.dataBits.code
    parity := r.parityCheck.code
    stopBits := r.stopBits.code
    flowCtrl := r.flowCtrl.code
    rxFlowCtrlThresh := if r.flowCtrl = .disable then 0 else 122 }

/-- SimpleUartDevice.cpp:25-61 `init`; the result is `none` when `ESP_ERROR_CHECK` aborts, in any case with the calls
made. -/
def init (drv : Driver) (port : Int) (r : Request) (s : St) : Option Bool × St :=
  if s.installed port then (some true, s)
  else
    let c1 := s.calls ++ [.paramConfig port (config r)]
    if !drv.ok c1 then (none, { s with calls := c1 })
    else
      let c2 := c1 ++ [.setPin port r.txPin r.rxPin]
      if !drv.ok c2 then (none, { s with calls := c2 })
      else
        let c3 := c2 ++ [.install port (drv.fifoLen port * 2)]
        if !drv.ok c3 then (none, { s with calls := c3 })
        else (some true, { calls := c3, installed := fun p => if p = port then true else s.installed p })

/-- Several calls of `init`, ending with the first abort. -/
def initAll (drv : Driver) : List (Int × Request) → St → Option St
  | [], s => some s
  | (p, r) :: rest, s =>
    match init drv p r s with
    | (none, _) => none
    | (some _, s) => initAll drv rest s

/-- SimpleUartDevice.cpp:63-71 `sendBlocking`; `data` is the memory from the pointer on. -/
def sendBlocking (drv : Driver) (port : Int) (data : List Byte) (size : Nat) (s : St) : Res (Int × St) :=
  if size > data.length then .ub
  else
    let result := drv.written s.calls
    let s := { s with calls := s.calls ++ [.write port (data.take size)] }
    if result > 0 then .ok (result, { s with calls := s.calls ++ [.waitTxDone port] })
    else .ok (result, s)

/-- SimpleUartDevice.cpp:73-77 `receiveBlocking`; `period` is `portTICK_PERIOD_MS`, `mem` the memory from the pointer
on.  The driver reports at most `size` bytes; reporting more is excluded by its interface (`.ub`). -/
def receiveBlocking (drv : Driver) (period : Nat) (port : Int) (size : Nat) (timeout : BitVec 32) (mem : List Byte)
    (s : St) : Res (Int × List Byte × St) :=
  let s' := { s with calls := s.calls ++ [.read port size (timeout.toNat / period)] }
  match drv.received s.calls with
  | none => .ok (-1, mem, s')
  | some bs =>
    if bs.length ≤ size ∧ bs.length ≤ mem.length then .ok (bs.length, bs ++ mem.drop bs.length, s') else .ub

end Verif.Uart.Device
