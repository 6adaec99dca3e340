import Verif.Basic
import Verif.Endian.Model
import Verif.Endian.Spec
import Verif.Endian.Props
import Verif.MemoryView.Model
import Verif.MemoryView.Props
import Verif.Storage.Model
import Verif.Storage.Spec
import Verif.Storage.Lemmas
import Verif.Storage.Lemmas2
import Verif.Storage.Props
import Verif.Storage.Big
import Verif.Storage.Crash
import Verif.Storage.Safety
import Verif.Storage.Recovery
import Verif.Storage.RecoveryProps
import Verif.Out.Model
import Verif.Out.Spec
import Verif.Out.Lemmas
import Verif.Out.Props
import Verif.Out.Float
import Verif.Out.Full
import Verif.Out.Std
import Verif.Out.Serial
import Verif.FrameBuffer.Model
import Verif.FrameBuffer.Spec
import Verif.FrameBuffer.Lemmas
import Verif.FrameBuffer.Props
import Verif.Canvas.Model
import Verif.Canvas.Spec
import Verif.Canvas.Lemmas
import Verif.Canvas.Props
import Verif.Canvas.Line
import Verif.Canvas.Circle
import Verif.Canvas.Closed
import Verif.Canvas.Ideal
import Verif.Canvas.Writes
import Verif.Canvas.DiscWrites
import Verif.Canvas.Exact
import Verif.Font.Model
import Verif.Font.Spec
import Verif.Font.Props
import Verif.Font.FreeSansData
import Verif.Font.FreeSans
import Verif.Text.Model
import Verif.Text.Props
import Verif.Text.Bounds
import Verif.Text.Writes
import Verif.Text.Picture
import Verif.Text.Order
import Verif.Text.Turned
import Verif.Converter.Model
import Verif.Converter.Spec
import Verif.Converter.Props
import Verif.Converter.EndToEnd
import Verif.Converter.HeaderModel
import Verif.Converter.HeaderSpec
import Verif.Converter.Header
import Verif.Converter.HeaderTokens
import Verif.Converter.ConfigModel
import Verif.Converter.ConfigProps
import Verif.Converter.MainModel
import Verif.Converter.MainProps
import Verif.Converter.LongOptions
import Verif.Converter.Resources
import Verif.Converter.Messages
import Verif.Uart.Esp
import Verif.Uart.EspProps
import Verif.Uart.EspStream
import Verif.Uart.EspMixed
import Verif.Uart.EspEvents
import Verif.Uart.Arduino
import Verif.Uart.ArduinoProps
import Verif.Spi.Arduino
import Verif.Spi.ArduinoProps
import Verif.Spi.Esp
import Verif.Spi.EspProps
import Verif.Spi.Life
import Verif.Hal.Gpio
import Verif.Hal.GpioProps
import Verif.Hal.GpioRead
import Verif.Hal.GpioPortable
import Verif.Hal.I2c
import Verif.Hal.I2cProps
import Verif.Hal.Time
import Verif.Hal.TimeProps
import Verif.Hal.Measured
import Verif.Hal.Adc
import Verif.Hal.AdcProps
import Verif.Hal.AdcPortable
import Verif.Spi.Display
import Verif.Geometry.Model
import Verif.Geometry.Props
import Verif.Conformance.Geometry
import Verif.Conformance.FrameBuffer
import Verif.Conformance.Core
import Verif.MemoryView.Bytes
import Verif.Storage.Handles
import Verif.Uart.Device
import Verif.Uart.DeviceProps
import Verif.Uart.Counts
import Verif.Hal.I2cBus
import Verif.Hal.I2cBusProps
import Verif.Hal.Clock
import Verif.Hal.ClockProps
import Verif.Spi.Device
import Verif.Spi.DeviceProps
import Verif.Spi.Shared
import Verif.Spi.Select
import Verif.Hal.I2cPortable
import Verif.Pbm.Model
import Verif.Pbm.Props
import Verif.Storage.Arbitrary
import Verif.Storage.Torn
import Verif.Storage.Durable
import Verif.Out.SerialFull
import Verif.Uart.ArduinoStream
import Verif.Uart.ArduinoEvents
import Verif.Uart.Portable
import Verif.Uart.PortableBulk
import Verif.Uart.SerialWire
import Verif.Uart.Lines
import Verif.Converter.Compile
import Verif.Converter.CompileProps
import Verif.Storage.Image
import Verif.Storage.Wear
import Verif.Storage.Order
import Verif.Converter.TextDraws
import Verif.Text.Adafruit
import Verif.Pbm.Picture
import Verif.Out.Order
import Verif.Text.LegibleLemmas
import Verif.Text.Legible
import Verif.Text.Reading
import Verif.Uart.Timed
import Verif.Uart.TimedUntimed
import Verif.Uart.TimedProps
import Verif.Uart.TimedBetween
import Verif.Uart.TimedArduino
import Verif.App.Thermometer
import Verif.App.BootCounter
import Verif.Text.Excess
import Verif.Uart.Server
import Verif.App.KeyValue
import Verif.Out.Near
import Verif.App.Telemetry
import Verif.Uart.DebugLog
import Verif.App.TwoSlots
import Verif.App.Sleep
import Verif.Spi.Faults
import Verif.App.Once
import Verif.Storage.Tasks
import Verif.Storage.Adder
import Verif.Storage.Work
import Verif.Storage.Uniform
import Verif.App.KeyValueLife
import Verif.Text.DrawTasks
import Verif.Uart.LogTasks
import Verif.Hal.I2cTasks
import Verif.App.Lock
import Verif.App.Locked
import Verif.App.LockedDraw
import Verif.App.LockedPower
import Verif.App.LockedSlots
import Verif.Spi.Tasks
import Verif.Hal.I2cShared
import Verif.Hal.Misuse
import Verif.Canvas.Domain
import Verif.Canvas.CircleDomain
import Verif.Text.Domain
import Verif.FrameBuffer.Anywhere
import Verif.Storage.Opening
import Verif.Storage.OpenAdd
