import Verif.Spec.Arbiter
import Verif.Spec.Bfm
import Verif.Spec.Circuit
import Verif.Spec.Convert
import Verif.Spec.Count
import Verif.Spec.Crg
import Verif.Spec.CrossDomain
import Verif.Spec.Float
import Verif.Spec.ForkJoin
import Verif.Spec.Hexdump
import Verif.Spec.I2c
import Verif.Spec.I2cBridge
import Verif.Spec.I2cBus
import Verif.Spec.I2cDevice
import Verif.Spec.I2cFrames
import Verif.Spec.I2cGroupsDev
import Verif.Spec.I2cHost
import Verif.Spec.I2cProto
import Verif.Spec.I2cPyDev
import Verif.Spec.I2cTarget
import Verif.Spec.I2cTxn
import Verif.Spec.Iir
import Verif.Spec.IirDyn
import Verif.Spec.IirIdeal
import Verif.Spec.Layout
import Verif.Spec.Pipeline
import Verif.Spec.Pll
import Verif.Spec.PllPrim
import Verif.Spec.Regs
import Verif.Spec.RegsStream
import Verif.Spec.Shared
import Verif.Spec.Spi
import Verif.Spec.SpiBridge
import Verif.Spec.SpiSession
import Verif.Spec.SpiSlave
import Verif.Spec.SpiUsb
import Verif.Spec.SpiWb
import Verif.Spec.Ssd1306
import Verif.Spec.Ssd1306Chip
import Verif.Spec.Stages
import Verif.Spec.StreamUtils
import Verif.Spec.Tca9548a
import Verif.Spec.Ulpi
import Verif.Spec.UlpiDirect
import Verif.Spec.UlpiDumpDirect
import Verif.Spec.UlpiPhy
import Verif.Spec.UsbBulk
import Verif.Spec.UsbDevice
import Verif.Spec.UsbGenericX
import Verif.Spec.Window
import Verif.Model.Arith
import Verif.Model.Basic
import Verif.Model.Bfm
import Verif.Model.Converter
import Verif.Model.Crg
import Verif.Model.CrossDomain
import Verif.Model.ForkJoin
import Verif.Model.Hexdump
import Verif.Model.I2c
import Verif.Model.I2cBus
import Verif.Model.I2cProto
import Verif.Model.I2cShared
import Verif.Model.I2cStream
import Verif.Model.I2cTop
import Verif.Model.I2cUsbTop
import Verif.Model.I2cWire
import Verif.Model.Iir
import Verif.Model.IirDyn
import Verif.Model.Layout
import Verif.Model.Led
import Verif.Model.Mem
import Verif.Model.Pipe
import Verif.Model.Pipeline
import Verif.Model.Pll
import Verif.Model.PllInst
import Verif.Model.Regs
import Verif.Model.Serial
import Verif.Model.Spi
import Verif.Model.SpiLink
import Verif.Model.SpiMaster
import Verif.Model.SpiSlave
import Verif.Model.SpiSlvTop
import Verif.Model.SpiWb
import Verif.Model.Ssd1306
import Verif.Model.Ssd1306I2c
import Verif.Model.Stages
import Verif.Model.StreamSim
import Verif.Model.StreamUtils
import Verif.Model.Time
import Verif.Model.Ulpi
import Verif.Model.UlpiDirect
import Verif.Model.UlpiDumpDirect
import Verif.Model.UlpiWrapper
import Verif.Model.UsbDevice
import Verif.Model.UsbEp
import Verif.Model.UsbGeneric
import Verif.Model.UsbGenericX
import Verif.Model.UsbHost
import Verif.Lemmas.Arbiter
import Verif.Lemmas.Arith
import Verif.Lemmas.Converter
import Verif.Lemmas.ConverterRoundtrip
import Verif.Lemmas.CrossDomain
import Verif.Lemmas.I2c
import Verif.Lemmas.I2cBridge
import Verif.Lemmas.I2cBus
import Verif.Lemmas.I2cClose
import Verif.Lemmas.I2cFrames
import Verif.Lemmas.I2cProto
import Verif.Lemmas.I2cStream
import Verif.Lemmas.I2cTime
import Verif.Lemmas.I2cTopTime
import Verif.Lemmas.I2cUsbCalls
import Verif.Lemmas.I2cUsbTime
import Verif.Lemmas.I2cWire
import Verif.Lemmas.I2cWriter
import Verif.Lemmas.Iir
import Verif.Lemmas.IirIdeal
import Verif.Lemmas.List
import Verif.Lemmas.Mem
import Verif.Lemmas.Run
import Verif.Lemmas.SpiDevice
import Verif.Lemmas.SpiMaster
import Verif.Lemmas.SpiPhy
import Verif.Lemmas.SpiSampled
import Verif.Lemmas.SpiSession
import Verif.Lemmas.SpiUsb
import Verif.Lemmas.StreamUtils
import Verif.Lemmas.Time
import Verif.Lemmas.Ulpi
import Verif.Lemmas.UlpiDirect
import Verif.Props.Arbiter
import Verif.Props.ArbiterPackets
import Verif.Props.Arith
import Verif.Props.Bfm
import Verif.Props.Converter
import Verif.Props.Crg
import Verif.Props.CrossDomain
import Verif.Props.Delay
import Verif.Props.ForkJoin
import Verif.Props.Hexdump
import Verif.Props.I2c
import Verif.Props.I2cBridge
import Verif.Props.I2cBus
import Verif.Props.I2cBusAny
import Verif.Props.I2cDevice
import Verif.Props.I2cDriver
import Verif.Props.I2cHost
import Verif.Props.I2cInit
import Verif.Props.I2cInitSystem
import Verif.Props.I2cLibrary
import Verif.Props.I2cProto
import Verif.Props.I2cRegStream
import Verif.Props.I2cShared
import Verif.Props.I2cSharedSystem
import Verif.Props.I2cStream
import Verif.Props.I2cSystem
import Verif.Props.I2cTime
import Verif.Props.I2cTop
import Verif.Props.I2cTopRun
import Verif.Props.I2cUart
import Verif.Props.I2cUsb
import Verif.Props.I2cUsbRun
import Verif.Props.I2cUsbTop
import Verif.Props.I2cWire
import Verif.Props.I2cWriter
import Verif.Props.I2cWriterSystem
import Verif.Props.Iir
import Verif.Props.IirDyn
import Verif.Props.IirIdeal
import Verif.Props.Layout
import Verif.Props.Led
import Verif.Props.Mem
import Verif.Props.Pipe
import Verif.Props.Pipeline
import Verif.Props.Pll
import Verif.Props.PllInst
import Verif.Props.Progress
import Verif.Props.Regs
import Verif.Props.RegsStream
import Verif.Props.Serial
import Verif.Props.Spi
import Verif.Props.SpiBridge
import Verif.Props.SpiDiv
import Verif.Props.SpiLink
import Verif.Props.SpiMaster
import Verif.Props.SpiPair
import Verif.Props.SpiPhy
import Verif.Props.SpiSlave
import Verif.Props.SpiSlvTop
import Verif.Props.SpiUsb
import Verif.Props.SpiWb
import Verif.Props.Ssd1306
import Verif.Props.Ssd1306Live
import Verif.Props.Ssd1306Picture
import Verif.Props.Ssd1306System
import Verif.Props.Stages
import Verif.Props.StreamSim
import Verif.Props.StreamUtils
import Verif.Props.Time
import Verif.Props.Ulpi
import Verif.Props.UlpiDirect
import Verif.Props.UlpiDump
import Verif.Props.UlpiDumpDirect
import Verif.Props.UlpiLink
import Verif.Props.UlpiWrapper
import Verif.Props.UlpiWrapperPkt
import Verif.Props.UlpiWrapperRegs
import Verif.Props.UlpiWrapperTx
import Verif.Props.UsbDevice
import Verif.Props.UsbEp
import Verif.Props.UsbGeneric
import Verif.Props.UsbGenericX
import Verif.Props.UsbHost
