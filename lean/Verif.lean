import Verif.Props.RingBuffer
import Verif.Props.RingBufferAny
import Verif.Props.RingBufferIsr
import Verif.Props.Bits
import Verif.Props.Array
import Verif.Props.Iterator
import Verif.Props.Range
import Verif.Props.Midi
import Verif.Props.Delays
import Verif.Props.PushButton
import Verif.Props.TextWriter
import Verif.Props.TextExact
import Verif.Props.PID
import Verif.Props.Serial3Wire
import Verif.Props.Lcd
import Verif.Props.Sonar
import Verif.Props.Motor
import Verif.Props.LcdSerial
import Verif.Props.Task
import Verif.Props.UI
import Verif.Props.UIEdit
import Verif.Props.UsartConfig
import Verif.Props.UsartData
import Verif.Props.UsartStream
import Verif.Props.Port
import Verif.Props.UIDisplay
import Verif.Props.UILcd
import Verif.Props.UILcdEdit
import Verif.Props.Arduino
import Verif.Props.Misc
import Verif.Props.LcdTiming
import Verif.Props.LcdResync
import Verif.Props.TimeoutSketch
import Verif.Props.ButtonSketch
import Verif.Props.CounterSketch
import Verif.Props.LcdSketch
import Verif.Props.TextBox
import Verif.Props.TextBoxAny
import Verif.Props.TextSketch
import Verif.Props.MidiLink
import Verif.Props.MidiLinkLossy
import Verif.Props.RingBufferTorn
import Verif.Props.RingBufferTornRoom
import Verif.Props.UsartDuplex
import Verif.Props.BitsSigned
import Verif.Props.CoreSketch
import Verif.Props.MidiTidy
import Verif.Props.UsartComplete
import Verif.Props.PIDFloat
import Verif.Props.UsartNine
import Verif.Props.AnalogPin
import Verif.Props.DelayAvr
import Verif.Tests.UnitTests
import Verif.Props.LcdI2CTiming
import Verif.Props.UsartClear
import Verif.Props.TextUsart
import Verif.Props.DelaysExact
import Verif.Props.DelayBook
import Verif.Props.DelayAny
import Verif.Props.UsartFlush
import Verif.Props.PIDHistory
import Verif.Props.SonarUsart
import Verif.Props.LcdConsole
import Verif.Props.LcdDrivers
import Verif.Props.MidiThru
import Verif.Props.SharedRegister
import Verif.Props.Exact
import Verif.Props.UsartBits
import Verif.Props.Exact2
import Verif.Props.BitArraySigned
import Verif.Props.PIDLoop
import Verif.Props.TaskControl
import Verif.Props.PortBits
import Verif.Props.LcdTimingExact
import Verif.Props.LcdI2CTimingExact
import Verif.Props.SerialLine
import Verif.Props.UILong
import Verif.Props.UIVisit
import Verif.Props.SharedSpeed
import Verif.Props.SonarWrite
import Verif.Props.BoardToBoard
import Verif.Props.UIOutside
import Verif.Props.UILcdBlink
import Verif.Props.PIDInt16
import Verif.Props.BitsSignedExact
import Verif.Props.PIDFloatExact
import Verif.Props.UsartDuplexExact
import Verif.Props.FrontPanel
import Verif.Props.PushButtonExact
import Verif.Props.Delegate
import Verif.Props.DelegateLife
import Verif.Props.DelegateNest
import Verif.Props.Terminal
import Verif.Props.MotorBoard
import Verif.Props.UsartWhole
import Verif.Props.PIDFloatIeee
import Verif.Props.MidiBoards
import Verif.Props.TerminalAccess
import Verif.Props.UsartBytes
import Verif.Props.BytesBoards
import Verif.Props.BytesTerminal
import Verif.Props.UsartBytesWhole
import Verif.Props.MotorInterrupt
import Verif.Props.SharedInterrupt
import Verif.Props.LcdInterrupt
import Verif.Props.DelaysInterrupt
import Verif.Props.RingBufferShared
import Verif.Props.TimeInterrupt
import Verif.Props.TimeTorn
import Verif.Props.TimeExInterrupt
import Verif.Props.MidiInterrupt
import Verif.Props.BitArrayInterrupt
import Verif.Props.CollectionInterrupt
import Verif.Props.CriticalSectionUse
import Verif.Props.UsartWriters
import Verif.Props.MidiClock
import Verif.Props.UsartReaders
import Verif.Props.UsartShared
import Verif.Props.TextShared
import Verif.Props.SharedData
import Verif.Props.UsartPolled
import Verif.Props.UsartPolledRead
import Verif.Props.StringInterrupt
import Verif.Props.ButtonInterrupt
import Verif.Props.InputInterrupt
import Verif.Props.RangeInterrupt
import Verif.Props.DelegateInterrupt
import Verif.Props.IteratorInterrupt
