import Verif.Model.Loader

/-!
# The applications and functions that come with the program

Written by tools/registry.py from `asterisklint/app/v*/*.py` and `asterisklint/func/v*/*.py`.
The files of v11 and v13 are links to the file of the same name in `vall`.
-/

namespace ALint

/-- A file of `vall`: is there a link to it in `v11`, in `v13`; what its `register` registers,
in this order (nothing if there is no such function).  `__init__.py` is a file of its own. -/
structure ModFile (α : Type) where
  file : Str
  v11 : Bool
  v13 : Bool
  regs : List α

/-- `asterisklint/app/vall/*.py`. -/
def appModFiles : List (ModFile AppInfo) := [
  ⟨c! "__init__.py", true, true, []⟩,
  ⟨c! "app_agent_pool.py", false, true, [⟨c! "AgentLogin", c! "app_agent_pool", .plain⟩,
    ⟨c! "AgentRequest", c! "app_agent_pool", .plain⟩]⟩,
  ⟨c! "app_authenticate.py", true, true, [⟨c! "Authenticate", c! "app_authenticate", .plain⟩]⟩,
  ⟨c! "app_bridgeaddchan.py", false, true, [⟨c! "BridgeAdd", c! "app_bridgeaddchan", .plain⟩]⟩,
  ⟨c! "app_bridgewait.py", false, true, [⟨c! "BridgeWait", c! "app_bridgewait", .plain⟩]⟩,
  ⟨c! "app_cdr.py", true, true, [⟨c! "NoCDR", c! "app_cdr", .plain⟩]⟩,
  ⟨c! "app_celgenuserevent.py", true, true, [⟨c! "CELGenUserEvent", c! "app_celgenuserevent", .plain⟩]⟩,
  ⟨c! "app_chanisavail.py", true, true, [⟨c! "ChanIsAvail", c! "app_chanisavail", .plain⟩]⟩,
  ⟨c! "app_channelredirect.py", true, true, [⟨c! "ChannelRedirect", c! "app_channelredirect", .plain⟩]⟩,
  ⟨c! "app_chanspy.py", true, true, [⟨c! "ChanSpy", c! "app_chanspy", .plain⟩,
    ⟨c! "ExtenSpy", c! "app_chanspy", .plain⟩]⟩,
  ⟨c! "app_confbridge.py", true, true, [⟨c! "ConfBridge", c! "app_confbridge", .plain⟩]⟩,
  ⟨c! "app_controlplayback.py", true, true, [⟨c! "ControlPlayback", c! "app_controlplayback", .plain⟩]⟩,
  ⟨c! "app_db.py", true, true, [⟨c! "DBdeltree", c! "app_db", .plain⟩]⟩,
  ⟨c! "app_dial.py", true, true, [⟨c! "Dial", c! "app_dial", .plain⟩,
    ⟨c! "RetryDial", c! "app_dial", .plain⟩]⟩,
  ⟨c! "app_directed_pickup.py", true, true, [⟨c! "Pickup", c! "app_directed_pickup", .plain⟩,
    ⟨c! "PickupChan", c! "app_directed_pickup", .plain⟩,
    ⟨c! "PickupOld1v4", c! "app_directed_pickup", .plain⟩]⟩,
  ⟨c! "app_directory.py", true, true, [⟨c! "Directory", c! "app_directory", .plain⟩]⟩,
  ⟨c! "app_dumpchan.py", true, true, [⟨c! "DumpChan", c! "app_dumpchan", .plain⟩]⟩,
  ⟨c! "app_echo.py", true, true, [⟨c! "Echo", c! "app_echo", .plain⟩]⟩,
  ⟨c! "app_exec.py", true, true, [⟨c! "Exec", c! "app_exec", .plain⟩,
    ⟨c! "ExecIf", c! "app_exec", .execIf⟩,
    ⟨c! "TryExec", c! "app_exec", .plain⟩]⟩,
  ⟨c! "app_followme.py", true, true, [⟨c! "FollowMe", c! "app_followme", .plain⟩]⟩,
  ⟨c! "app_forkcdr.py", true, true, [⟨c! "ForkCDR", c! "app_forkcdr", .plain⟩]⟩,
  ⟨c! "app_macro.py", true, true, [⟨c! "Macro", c! "app_macro", .plain⟩,
    ⟨c! "MacroIf", c! "app_macro", .plain⟩,
    ⟨c! "MacroExclusive", c! "app_macro", .plain⟩,
    ⟨c! "MacroExit", c! "app_macro", .plain⟩]⟩,
  ⟨c! "app_meetme.py", true, true, [⟨c! "MeetMe", c! "app_meetme", .plain⟩,
    ⟨c! "MeetMeCount", c! "app_meetme", .plain⟩,
    ⟨c! "MeetMeAdmin", c! "app_meetme", .plain⟩,
    ⟨c! "MeetMeChannelAdmin", c! "app_meetme", .plain⟩,
    ⟨c! "SLAStation", c! "app_meetme", .plain⟩,
    ⟨c! "SLATrunk", c! "app_meetme", .plain⟩]⟩,
  ⟨c! "app_milliwatt.py", true, true, [⟨c! "Milliwatt", c! "app_milliwatt", .args none [.options (c! "o")]⟩]⟩,
  ⟨c! "app_mixmonitor.py", true, true, [⟨c! "MixMonitor", c! "app_mixmonitor", .plain⟩,
    ⟨c! "StopMixMonitor", c! "app_mixmonitor", .plain⟩]⟩,
  ⟨c! "app_mysql.py", true, true, [⟨c! "MYSQL", c! "app_mysql", .plain⟩]⟩,
  ⟨c! "app_originate.py", true, true, [⟨c! "Originate", c! "app_originate", .args (some 3) [.any, .appOrExten, .any, .any, .any, .any]⟩]⟩,
  ⟨c! "app_page.py", true, true, [⟨c! "Page", c! "app_page", .plain⟩]⟩,
  ⟨c! "app_playback.py", true, true, [⟨c! "Playback", c! "app_playback", .plain⟩]⟩,
  ⟨c! "app_playtones.py", true, true, [⟨c! "PlayTones", c! "app_playtones", .plain⟩,
    ⟨c! "StopPlayTones", c! "app_playtones", .plain⟩]⟩,
  ⟨c! "app_queue.py", true, true, [⟨c! "Queue", c! "app_queue", .plain⟩,
    ⟨c! "AddQueueMember", c! "app_queue", .plain⟩,
    ⟨c! "RemoveQueueMember", c! "app_queue", .plain⟩,
    ⟨c! "PauseQueueMember", c! "app_queue", .plain⟩,
    ⟨c! "UnpauseQueueMember", c! "app_queue", .plain⟩,
    ⟨c! "QueueLog", c! "app_queue", .plain⟩]⟩,
  ⟨c! "app_read.py", true, true, [⟨c! "Read", c! "app_read", .plain⟩]⟩,
  ⟨c! "app_record.py", true, true, [⟨c! "Record", c! "app_record", .plain⟩]⟩,
  ⟨c! "app_sayunixtime.py", true, true, [⟨c! "DateTime", c! "app_sayunixtime", .plain⟩,
    ⟨c! "SayUnixTime", c! "app_sayunixtime", .plain⟩]⟩,
  ⟨c! "app_senddtmf.py", true, true, [⟨c! "SendDTMF", c! "app_senddtmf", .plain⟩]⟩,
  ⟨c! "app_setcallerid.py", true, true, [⟨c! "SetCallerID", c! "app_setcallerid", .plain⟩,
    ⟨c! "SetCallerPres", c! "app_setcallerid", .plain⟩]⟩,
  ⟨c! "app_softhangup.py", true, true, [⟨c! "SoftHangup", c! "app_softhangup", .plain⟩]⟩,
  ⟨c! "app_stack.py", true, true, [⟨c! "Gosub", c! "app_stack", .gosub⟩,
    ⟨c! "GosubIf", c! "app_stack", .gosubIf⟩,
    ⟨c! "Return", c! "app_stack", .plain⟩,
    ⟨c! "StackPop", c! "app_stack", .plain⟩]⟩,
  ⟨c! "app_stasis.py", false, true, [⟨c! "Stasis", c! "app_stasis", .plain⟩]⟩,
  ⟨c! "app_system.py", true, true, [⟨c! "System", c! "app_system", .plain⟩,
    ⟨c! "TrySystem", c! "app_system", .plain⟩]⟩,
  ⟨c! "app_userevent.py", true, true, [⟨c! "UserEvent", c! "app_userevent", .plain⟩]⟩,
  ⟨c! "app_verbose.py", true, true, [⟨c! "Log", c! "app_verbose", .plain⟩,
    ⟨c! "Verbose", c! "app_verbose", .plain⟩]⟩,
  ⟨c! "app_voicemail.py", true, true, [⟨c! "VoiceMail", c! "app_voicemail", .args (some 1) [.any, .options (c! "bdgsuUP")]⟩,
    ⟨c! "VoiceMailMain", c! "app_voicemail", .plain⟩,
    ⟨c! "VoiceMailPlayMsg", c! "app_voicemail", .plain⟩,
    ⟨c! "MailboxExists", c! "app_voicemail", .plain⟩,
    ⟨c! "VMAuthenticate", c! "app_voicemail", .plain⟩,
    ⟨c! "VMSayName", c! "app_voicemail", .plain⟩]⟩,
  ⟨c! "app_waituntil.py", true, true, [⟨c! "WaitUntil", c! "app_waituntil", .plain⟩]⟩,
  ⟨c! "app_while.py", true, true, [⟨c! "ContinueWhile", c! "app_while", .plain⟩,
    ⟨c! "EndWhile", c! "app_while", .plain⟩,
    ⟨c! "ExitWhile", c! "app_while", .plain⟩,
    ⟨c! "While", c! "app_while", .plain⟩]⟩,
  ⟨c! "builtin.py", true, true, [⟨c! "Answer", c! "<builtin>", .plain⟩,
    ⟨c! "Background", c! "<builtin>", .background⟩,
    ⟨c! "Bridge", c! "<builtin>", .plain⟩,
    ⟨c! "Busy", c! "<builtin>", .plain⟩,
    ⟨c! "Congestion", c! "<builtin>", .plain⟩,
    ⟨c! "Goto", c! "<builtin>", .goto⟩,
    ⟨c! "GotoIf", c! "<builtin>", .gotoIf⟩,
    ⟨c! "GotoIfTime", c! "<builtin>", .ifTime⟩,
    ⟨c! "ExecIfTime", c! "<builtin>", .ifTime⟩,
    ⟨c! "Hangup", c! "<builtin>", .plain⟩,
    ⟨c! "NoOp", c! "<builtin>", .plain⟩,
    ⟨c! "Proceeding", c! "<builtin>", .plain⟩,
    ⟨c! "Progress", c! "<builtin>", .plain⟩,
    ⟨c! "ResetCDR", c! "<builtin>", .plain⟩,
    ⟨c! "Ringing", c! "<builtin>", .plain⟩,
    ⟨c! "SayNumber", c! "<builtin>", .plain⟩,
    ⟨c! "SayDigits", c! "<builtin>", .plain⟩,
    ⟨c! "SayAlpha", c! "<builtin>", .plain⟩,
    ⟨c! "SayPhonetic", c! "<builtin>", .plain⟩,
    ⟨c! "SetAMAFlags", c! "<builtin>", .plain⟩,
    ⟨c! "SetGlobalVar", c! "<builtin>", .plain⟩,
    ⟨c! "Set", c! "<builtin>", .set⟩,
    ⟨c! "ImportVar", c! "<builtin>", .plain⟩,
    ⟨c! "Wait", c! "<builtin>", .plain⟩,
    ⟨c! "WaitExten", c! "<builtin>", .plain⟩]⟩,
  ⟨c! "chan_sip.py", true, true, [⟨c! "SIPAddHeader", c! "chan_sip", .plain⟩,
    ⟨c! "SIPRemoveHeader", c! "chan_sip", .plain⟩,
    ⟨c! "SIPDtmfMode", c! "chan_sip", .plain⟩]⟩,
  ⟨c! "func_odbc.py", true, true, [⟨c! "ODBCFinish", c! "func_odbc", .plain⟩]⟩,
  ⟨c! "res_agi.py", true, true, [⟨c! "AGI", c! "res_agi", .plain⟩,
    ⟨c! "DeadAGI", c! "res_agi", .plain⟩,
    ⟨c! "EAGI", c! "res_agi", .plain⟩]⟩,
  ⟨c! "res_fax.py", true, true, [⟨c! "ReceiveFAX", c! "res_fax", .plain⟩,
    ⟨c! "SendFAX", c! "res_fax", .plain⟩]⟩,
  ⟨c! "res_musiconhold.py", true, true, [⟨c! "MusicOnHold", c! "res_musiconhold", .plain⟩,
    ⟨c! "WaitMusicOnHold", c! "res_musiconhold", .plain⟩,
    ⟨c! "SetMusicOnHold", c! "res_musiconhold", .plain⟩,
    ⟨c! "StartMusicOnHold", c! "res_musiconhold", .plain⟩,
    ⟨c! "StopMusicOnHold", c! "res_musiconhold", .plain⟩]⟩,
  ⟨c! "unknown.py", true, true, [⟨c! "Unknown", c! "unknown", .plain⟩]⟩]

/-- `asterisklint/func/vall/*.py`. -/
def funcModFiles : List (ModFile FuncInfo) := [
  ⟨c! "__init__.py", true, true, []⟩,
  ⟨c! "app_confbridge.py", true, true, [⟨c! "CONFBRIDGE", c! "app_confbridge", .plain⟩,
    ⟨c! "CONFBRIDGE_INFO", c! "app_confbridge", .plain⟩]⟩,
  ⟨c! "app_queue.py", true, true, [⟨c! "QUEUE_EXISTS", c! "app_queue", .plain⟩,
    ⟨c! "QUEUE_MEMBER", c! "app_queue", .plain⟩,
    ⟨c! "QUEUE_MEMBER_COUNT", c! "app_queue", .plain⟩,
    ⟨c! "QUEUE_MEMBER_LIST", c! "app_queue", .plain⟩,
    ⟨c! "QUEUE_MEMBER_PENALTY", c! "app_queue", .plain⟩,
    ⟨c! "QUEUE_VARIABLES", c! "app_queue", .plain⟩,
    ⟨c! "QUEUE_WAITING_COUNT", c! "app_queue", .plain⟩]⟩,
  ⟨c! "app_stack.py", true, true, [⟨c! "LOCAL", c! "app_stack", .plain⟩,
    ⟨c! "LOCAL_PEEK", c! "app_stack", .plain⟩,
    ⟨c! "STACK_PEEK", c! "app_stack", .plain⟩]⟩,
  ⟨c! "builtin.py", true, true, [⟨c! "AMI_CLIENT", c! "<builtin>", .plain⟩,
    ⟨c! "EXCEPTION", c! "<builtin>", .plain⟩,
    ⟨c! "FEATURE", c! "<builtin>", .plain⟩,
    ⟨c! "FEATUREMAP", c! "<builtin>", .plain⟩,
    ⟨c! "MESSAGE", c! "<builtin>", .plain⟩,
    ⟨c! "MESSAGE_DATA", c! "<builtin>", .plain⟩,
    ⟨c! "TESTTIME", c! "<builtin>", .plain⟩]⟩,
  ⟨c! "chan_pjsip.py", false, true, [⟨c! "PJSIP_DIAL_CONTACTS", c! "chan_pjsip", .plain⟩,
    ⟨c! "PJSIP_DTMF_MODE", c! "chan_pjsip", .plain⟩,
    ⟨c! "PJSIP_MEDIA_OFFER", c! "chan_pjsip", .plain⟩,
    ⟨c! "PJSIP_MOH_PASSTHROUGH", c! "chan_pjsip", .plain⟩,
    ⟨c! "PJSIP_PARSE_URI", c! "chan_pjsip", .plain⟩,
    ⟨c! "PJSIP_SEND_SESSION_REFRESH", c! "chan_pjsip", .plain⟩]⟩,
  ⟨c! "chan_sip.py", true, true, [⟨c! "CHECKSIPDOMAIN", c! "chan_sip", .plain⟩,
    ⟨c! "SIP_HEADER", c! "chan_sip", .plain⟩,
    ⟨c! "SIPCHANINFO", c! "chan_sip", .plain⟩,
    ⟨c! "SIPPEER", c! "chan_sip", .plain⟩]⟩,
  ⟨c! "func_audiohookinherit.py", true, true, [⟨c! "AUDIOHOOK_INHERIT", c! "func_audiohookinherit", .audiohook⟩]⟩,
  ⟨c! "func_base64.py", true, true, [⟨c! "BASE64_ENCODE", c! "func_base64", .plain⟩,
    ⟨c! "BASE64_DECODE", c! "func_base64", .plain⟩]⟩,
  ⟨c! "func_callerid.py", true, true, [⟨c! "CALLERID", c! "func_callerid", .plain⟩,
    ⟨c! "CALLERPRES", c! "func_callerid", .plain⟩,
    ⟨c! "CONNECTEDLINE", c! "func_callerid", .plain⟩,
    ⟨c! "REDIRECTING", c! "func_callerid", .plain⟩]⟩,
  ⟨c! "func_cdr.py", true, true, [⟨c! "CDR", c! "func_cdr", .plain⟩]⟩,
  ⟨c! "func_channel.py", true, true, [⟨c! "CHANNEL", c! "func_channel", .plain⟩,
    ⟨c! "CHANNELS", c! "func_channel", .plain⟩,
    ⟨c! "MASTER_CHANNEL", c! "func_channel", .plain⟩]⟩,
  ⟨c! "func_curl.py", true, true, [⟨c! "CURL", c! "func_curl", .plain⟩,
    ⟨c! "CURLOPT", c! "func_curl", .plain⟩]⟩,
  ⟨c! "func_cut.py", true, true, [⟨c! "CUT", c! "func_cut", .plain⟩,
    ⟨c! "SORT", c! "func_cut", .plain⟩]⟩,
  ⟨c! "func_db.py", true, true, [⟨c! "DB", c! "func_db", .plain⟩,
    ⟨c! "DB_EXISTS", c! "func_db", .plain⟩,
    ⟨c! "DB_KEYS", c! "func_db", .plain⟩,
    ⟨c! "DB_DELETE", c! "func_db", .plain⟩]⟩,
  ⟨c! "func_devstate.py", true, true, [⟨c! "DEVICE_STATE", c! "func_devstate", .plain⟩,
    ⟨c! "HINT", c! "func_devstate", .plain⟩]⟩,
  ⟨c! "func_dialgroup.py", true, true, [⟨c! "DIALGROUP", c! "func_dialgroup", .plain⟩]⟩,
  ⟨c! "func_dialplan.py", true, true, [⟨c! "DIALPLAN_EXISTS", c! "func_dialplan", .plain⟩,
    ⟨c! "VALID_EXTEN", c! "func_dialplan", .plain⟩]⟩,
  ⟨c! "func_enum.py", true, true, [⟨c! "ENUMQUERY", c! "func_enum", .plain⟩,
    ⟨c! "ENUMRESULT", c! "func_enum", .plain⟩,
    ⟨c! "ENUMLOOKUP", c! "func_enum", .plain⟩,
    ⟨c! "TXTCIDNAME", c! "func_enum", .plain⟩]⟩,
  ⟨c! "func_env.py", true, true, [⟨c! "ENV", c! "func_env", .plain⟩,
    ⟨c! "FILE", c! "func_env", .plain⟩,
    ⟨c! "FILE_COUNT_LINE", c! "func_env", .plain⟩,
    ⟨c! "FILE_FORMAT", c! "func_env", .plain⟩,
    ⟨c! "STAT", c! "func_env", .plain⟩]⟩,
  ⟨c! "func_global.py", true, true, [⟨c! "GLOBAL", c! "func_global", .plain⟩,
    ⟨c! "SHARED", c! "func_global", .plain⟩]⟩,
  ⟨c! "func_groupcount.py", true, true, [⟨c! "GROUP", c! "func_groupcount", .plain⟩,
    ⟨c! "GROUP_COUNT", c! "func_groupcount", .plain⟩,
    ⟨c! "GROUP_LIST", c! "func_groupcount", .plain⟩,
    ⟨c! "GROUP_MATCH_COUNT", c! "func_groupcount", .plain⟩]⟩,
  ⟨c! "func_logic.py", true, true, [⟨c! "EXISTS", c! "func_logic", .plain⟩,
    ⟨c! "IF", c! "func_logic", .plain⟩,
    ⟨c! "IFTIME", c! "func_logic", .plain⟩,
    ⟨c! "IMPORT", c! "func_logic", .plain⟩,
    ⟨c! "ISNULL", c! "func_logic", .plain⟩,
    ⟨c! "SET", c! "func_logic", .set⟩]⟩,
  ⟨c! "func_math.py", true, true, [⟨c! "MATH", c! "func_math", .plain⟩,
    ⟨c! "INC", c! "func_math", .count⟩,
    ⟨c! "DEC", c! "func_math", .count⟩]⟩,
  ⟨c! "func_md5.py", true, true, [⟨c! "MD5", c! "func_md5", .plain⟩]⟩,
  ⟨c! "func_odbc.py", true, true, [⟨c! "ODBC_FETCH", c! "func_odbc", .plain⟩,
    ⟨c! "SQL_ESC", c! "func_odbc", .plain⟩]⟩,
  ⟨c! "func_pjsip.py", false, true, [⟨c! "PJSIP_AOR", c! "func_pjsip", .plain⟩,
    ⟨c! "PJSIP_CONTACT", c! "func_pjsip", .plain⟩,
    ⟨c! "PJSIP_ENDPOINT", c! "func_pjsip", .plain⟩]⟩,
  ⟨c! "func_rand.py", true, true, [⟨c! "RAND", c! "func_rand", .plain⟩]⟩,
  ⟨c! "func_shell.py", true, true, [⟨c! "SHELL", c! "func_shell", .plain⟩]⟩,
  ⟨c! "func_strings.py", true, true, [⟨c! "ARRAY", c! "func_strings", .plain⟩,
    ⟨c! "CSV_QUOTE", c! "func_strings", .plain⟩,
    ⟨c! "EVAL", c! "func_strings", .plain⟩,
    ⟨c! "FIELDNUM", c! "func_strings", .plain⟩,
    ⟨c! "FIELDQTY", c! "func_strings", .plain⟩,
    ⟨c! "FILTER", c! "func_strings", .plain⟩,
    ⟨c! "HASH", c! "func_strings", .plain⟩,
    ⟨c! "HASHKEYS", c! "func_strings", .plain⟩,
    ⟨c! "KEYPADHASH", c! "func_strings", .plain⟩,
    ⟨c! "LEN", c! "func_strings", .plain⟩,
    ⟨c! "LISTFILTER", c! "func_strings", .plain⟩,
    ⟨c! "PASSTHRU", c! "func_strings", .plain⟩,
    ⟨c! "POP", c! "func_strings", .plain⟩,
    ⟨c! "PUSH", c! "func_strings", .plain⟩,
    ⟨c! "QUOTE", c! "func_strings", .plain⟩,
    ⟨c! "REGEX", c! "func_strings", .plain⟩,
    ⟨c! "REPLACE", c! "func_strings", .plain⟩,
    ⟨c! "SHIFT", c! "func_strings", .plain⟩,
    ⟨c! "STRFTIME", c! "func_strings", .plain⟩,
    ⟨c! "STRPTIME", c! "func_strings", .plain⟩,
    ⟨c! "STRREPLACE", c! "func_strings", .plain⟩,
    ⟨c! "TOLOWER", c! "func_strings", .plain⟩,
    ⟨c! "TOUPPER", c! "func_strings", .plain⟩,
    ⟨c! "UNSHIFT", c! "func_strings", .plain⟩]⟩,
  ⟨c! "func_talkdetect.py", false, true, [⟨c! "TALK_DETECT", c! "func_talkdetect", .plain⟩]⟩,
  ⟨c! "func_timeout.py", true, true, [⟨c! "TIMEOUT", c! "func_timeout", .plain⟩]⟩,
  ⟨c! "func_uri.py", true, true, [⟨c! "URIDECODE", c! "func_uri", .plain⟩,
    ⟨c! "URIENCODE", c! "func_uri", .plain⟩]⟩,
  ⟨c! "func_volume.py", true, true, [⟨c! "VOLUME", c! "func_volume", .plain⟩]⟩,
  ⟨c! "res_fax.py", true, true, [⟨c! "FAXOPT", c! "res_fax", .plain⟩]⟩,
  ⟨c! "res_pjsip.py", false, true, [⟨c! "PJSIP_HEADER", c! "res_pjsip", .plain⟩]⟩,
  ⟨c! "unknown.py", true, true, [⟨c! "UNKNOWN", c! "unknown", .plain⟩]⟩]

end ALint
