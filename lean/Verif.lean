import Verif.Lemmas.QuietOps
import Verif.Lemmas.InvOps
import Verif.Lemmas.Init
import Verif.Props.Names
import Verif.Props.Data
import Verif.Props.Tags
import Verif.Props.ReadOnly
import Verif.Props.Leave
import Verif.Props.Counts
import Verif.Props.Override
import Verif.Props.OvrCounts
import Verif.Props.Types
import Verif.Props.Layout
import Verif.Spec.Events
import Verif.Lemmas.EventStep
import Verif.Lemmas.EventHist
import Verif.Lemmas.EventKinds
import Verif.Props.Events
import Verif.Spec.EventFloat
import Verif.Props.EventFloat
import Verif.Spec.Subs
import Verif.Lemmas.Subs
import Verif.Lemmas.Tally
import Verif.Props.Subs
import Verif.Spec.Maps
import Verif.Spec.MapData
import Verif.Lemmas.Maps
import Verif.Props.Maps
import Verif.Props.MapData
import Verif.Spec.Groups
import Verif.Lemmas.Groups
import Verif.Props.Groups
import Verif.Spec.Atomic
import Verif.Lemmas.Atomic
import Verif.Props.Atomic
import Verif.Spec.Status
import Verif.Lemmas.Status
import Verif.Props.Status
import Verif.Model.MbCrc
import Verif.Model.LibCdt
import Verif.Spec.Crc
import Verif.Lemmas.Crc
import Verif.Lemmas.Text
import Verif.Props.Crc
import Verif.Spec.LibTypes
import Verif.Lemmas.LibCdt
import Verif.Props.LibTypes
import Verif.Props.Master
import Verif.Props.ModuleRing
import Verif.Props.Conv
import Verif.Props.LibEvent
import Verif.Props.LibNames
import Verif.Props.LibCache
import Verif.Props.LibRecv
import Verif.Props.Buffer
import Verif.Props.Wire
import Verif.Props.LibData
import Verif.Props.LibPath
import Verif.Props.Queue
import Verif.Props.Modbus
import Verif.Props.LibOpt
import Verif.Props.Retain
import Verif.Spec.ModbusWrite
import Verif.Props.ModbusWrite
import Verif.Model.ModbusMaster
import Verif.Spec.ModbusMaster
import Verif.Props.ModbusMaster
import Verif.Props.ModbusTake
import Verif.Props.ModbusEnd
import Verif.Props.ModbusTcp
import Verif.Props.ModbusWriteEnd
import Verif.Props.ModbusTcpRun
import Verif.Model.LibFqn
import Verif.Spec.LibFqn
import Verif.Props.LibFqn
import Verif.Model.LibLua
import Verif.Spec.LibLua
import Verif.Lemmas.LibLua
import Verif.Lemmas.LibLuaWrite
import Verif.Props.LibLua
import Verif.Model.LuaTag
import Verif.Spec.LuaTag
import Verif.Lemmas.LuaTag
import Verif.Props.LuaTag
import Verif.Model.LibUtil
import Verif.Spec.LibUtil
import Verif.Lemmas.LibUtil
import Verif.Props.LibUtil
import Verif.Model.ScriptQueue
import Verif.Spec.ScriptQueue
import Verif.Lemmas.ScriptQueue
import Verif.Props.ScriptQueue
import Verif.Model.LuaScript
import Verif.Model.LuaCycle
import Verif.Model.Histlog
import Verif.Model.Mqtt
import Verif.Model.Plctag
import Verif.Model.Logger
import Verif.Model.ModbusConf
import Verif.Model.ModbusLoop
import Verif.Model.ModbusAsync
import Verif.Model.Daxc
import Verif.Model.HistPlugin
import Verif.Spec.HistPlugin
import Verif.Lemmas.HistPlugin
import Verif.Model.DaxcEvent
import Verif.Model.ServerOpt
import Verif.Spec.ServerOpt
import Verif.Lemmas.ServerOpt
import Verif.Model.PlcConf
import Verif.Model.MasterConf
import Verif.Spec.MasterConf
import Verif.Model.LuaConf
import Verif.Spec.LuaConf
import Verif.Model.LibGroup
import Verif.Model.LibOverride
import Verif.Model.ScriptStart
import Verif.Model.MqttConf
import Verif.Model.ModbusConns
import Verif.Model.Joystick
import Verif.Model.LuaOverride
import Verif.Spec.Daxc
import Verif.Lemmas.Daxc
import Verif.Spec.LuaScript
import Verif.Spec.LuaCycle
import Verif.Spec.Histlog
import Verif.Spec.Mqtt
import Verif.Spec.Logger
import Verif.Spec.ModbusConf
import Verif.Spec.ModbusPool
import Verif.Spec.ModbusEvents
import Verif.Lemmas.ModbusConf
import Verif.Lemmas.ModbusEvents
import Verif.Props.LuaScript
import Verif.Props.LuaCycle
import Verif.Props.Histlog
import Verif.Props.Mqtt
import Verif.Props.Plctag
import Verif.Props.Logger
import Verif.Props.ModbusConf
import Verif.Props.ModbusPool
import Verif.Props.ModbusEvents
import Verif.Props.ModbusLoop
import Verif.Props.ModbusAsync
import Verif.Props.Daxc
import Verif.Props.HistPlugin
import Verif.Props.DaxcEvent
import Verif.Props.ServerOpt
import Verif.Props.PlcConf
import Verif.Props.MasterConf
import Verif.Props.LuaConf
import Verif.Props.LuaTrigger
import Verif.Props.LibGroup
import Verif.Props.LibOverride
import Verif.Props.ScriptStart
import Verif.Props.MqttConf
import Verif.Props.ModbusConns
import Verif.Props.Joystick
import Verif.Props.LuaOverride
